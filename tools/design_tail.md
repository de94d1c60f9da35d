
## 6. Testing the theorems

`tools/mutate.py` edits one definition of the model in a scratch copy, rebuilds and lists the property theorems that fail; every attempt
is a line of seeded/LOG.jsonl, with the theorems that were tightened because of it.

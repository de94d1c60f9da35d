import json,sys
# usage: addprop.py file.json : list of property objects to append (or replace by id); {"status": {...}} merged into status.json
L=[json.loads(l) for l in open('/verif/properties.jsonl')]
new=json.load(open(sys.argv[1]))
ids={d['id']:i for i,d in enumerate(L)}
for d in new.get('props',[]):
    if d['id'] in ids: L[ids[d['id']]].update(d)
    else: L.append(d)
L.sort(key=lambda d:int(d['id'][1:]))
open('/verif/properties.jsonl','w').write(''.join(json.dumps(d)+'\n' for d in L))
st=json.load(open('/verif/tools/status.json'))
st.update(new.get('status',{}))
json.dump(st,open('/verif/tools/status.json','w'),indent=1)

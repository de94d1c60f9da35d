import Verif.Ga.Assemble

/-!
# GAs on real vectors made of shipped operators
-/

namespace Ecrs.Ga
open Ecrs

section
variable {G K I C F : Type} [Field K] [LinearOrder K] [IsStrictOrderedRing K] [FloorSemiring K] [LinearOrder F]

/-- A solver configuration for problems on real vectors made of shipped operators: RandomPoints in a box, a shipped
selection, crossover, mutation and replacement and a plain fitness function (e.g. examples/ga.rs:19-63 and
coco/src/main.rs:90-126). -/
def realOps {W : Type} (R : FRng G K) (T : IndTrait I C F) (X : ChromOps I K) (S : Slots W G) (f : C → Fl F) (fit : I → K)
    (half : K) (fuel count : Nat) (rp : RandomPoints K) (sel : Selection K I) (cr : Crossover K) (mu : Mutation K)
    (re : Replacement) (debug : Bool) (elapsed : M W Nat) : Ops W I F where
  generate n := S.gen.run (rp.generate R.toRng X n)
  fitnessFn := fnFitness T f
  select m pop := S.sel.run (sel.apply R T fit fuel count m pop)
  cross _ pool := S.cross.run (cr.apply R.toRng X half fuel pool)
  mutate _ i := S.mutate.run (applyMutation X (mu.run R.toRng) i)
  replace _ pop children := re.apply T debug pop children
  requiresChildrenFitness := re.requiresChildrenFitness
  elapsed := elapsed

end
end Ecrs.Ga

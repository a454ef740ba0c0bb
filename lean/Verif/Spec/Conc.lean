import Verif.Model.Conc
/-!
# Specification: what the locks must protect
-/
namespace Annoy
namespace Conc
variable {c : Cfg}

/-- The next action of a worker reads or writes node memory. -/
def Touches : Prog c → Prop
  | .read _ _ | .write _ _ _ => True
  | _ => False

/-- The node the next action writes. -/
def writes : Prog c → Option Nat
  | .write i _ _ => some i
  | _ => none

/-- The next action uses the node counter or the size. -/
def Counts : Prog c → Prop
  | .readN _ | .setN _ _ | .readSize _ | .grow _ _ => True
  | _ => False

/-- The next action uses the root list. -/
def Roots : Prog c → Prop
  | .readRoots _ | .setRoots _ _ => True
  | _ => False

/-- The next action is a lock operation. -/
def LockOp : Prog c → Prop
  | .lockN _ | .unlockN _ | .rlock _ | .runlock _ | .wlock _ | .wunlock _ | .lockR _ | .unlockR _ => True
  | _ => False

/-- Worker number `k` does one action. -/
def StepOf (k : Nat) (x y : Conf c) : Prop :=
  ∃ h p h' p', x.ths[k]? = some (h, p) ∧
    TStep ((x.ths.eraseIdx k).map Prod.fst) x.idx h p y.idx h' p' ∧ y.ths = x.ths.set k (h', p')

/-- Two different workers of a configuration. -/
def Conf.Two (x : Conf c) (a b : Held × Prog c) : Prop :=
  ∃ pre mid post, x.ths = pre ++ a :: mid ++ b :: post ∨ x.ths = pre ++ b :: mid ++ a :: post

end Conc
end Annoy

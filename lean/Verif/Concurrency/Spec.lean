import Verif.Concurrency.Model

/-!
# What is said about executions

`History`: what became of an object, as one visit after the other.  `Safe`: programs use locks as Rust's
guards force them to, and take further locks only in a fixed order.
-/

namespace Antlr.Conc

variable {D T R α β : Type}

/-- The guards a thread can have on a lock: none, a read guard, an upgradable guard, both, a guard that is being
upgraded, a write guard. -/
inductive Mode where
  | free | rd | up | upRd | pending | wr
deriving DecidableEq

/-- The thread owns the lock: other threads can have read guards at most. -/
def Mode.owns : Mode → Bool
  | .up | .upRd | .pending | .wr => true
  | _ => false

def Mode.reads : Mode → Bool
  | .rd | .upRd => true
  | _ => false

/-- The writer bit is set. -/
def Mode.excludes : Mode → Bool
  | .pending | .wr => true
  | _ => false

/-- Can the object be used through a guard? -/
def Mode.derefs : Mode → Bool
  | .free | .pending => false
  | _ => true

/-- A thread with the guards `h` running the program uses locks properly, and `Q` holds of the guards and the result at
the end.  A lock that is taken or upgraded has a lower level than all other locks held. -/
def Safe (level : Nat → Nat) (Q : (Nat → Mode) → α → Prop) : (Nat → Mode) → Prog D T R α → Prop
  | h, .ret a => Q h a
  | _, .panic => True
  | h, .acquire o _ k => h o = .free ∧ (∀ x, h x ≠ .free → level o < level x) ∧ Safe level Q (upd h o .up) k
  | h, .look o k => (h o).derefs = true ∧ ∀ d, Safe level Q h (k d)
  | h, .read o k => (h o = .up ∧ Safe level Q (upd h o .upRd) k) ∨
      (h o = .free ∧ (∀ x, h x ≠ .free → level o < level x) ∧ Safe level Q (upd h o .rd) k)
  | h, .unread o k => (h o = .upRd ∧ Safe level Q (upd h o .up) k) ∨ (h o = .rd ∧ Safe level Q (upd h o .free) k)
  | h, .upgrade o k => h o = .up ∧ (∀ x, x ≠ o → h x ≠ .free → level o < level x) ∧ Safe level Q (upd h o .wr) k
  | h, .await o k => h o = .pending ∧ (∀ x, x ≠ o → h x ≠ .free → level o < level x) ∧ Safe level Q (upd h o .wr) k
  | h, .store o _ k => h o = .wr ∧ Safe level Q h k
  | h, .downgrade o k => h o = .wr ∧ Safe level Q (upd h o .up) k
  | h, .release o _ k => h o = .up ∧ Safe level Q (upd h o .free) k

/-- No guards. -/
def bare : Nat → Mode := fun _ => .free

/-- A whole thread. -/
def SafeThread (level : Nat → Nat) (p : Prog D T R Unit) : Prop := Safe level (fun h _ => ∀ o, h o = .free) bare p

/-- The visit of object `o` the program is in the middle of: `Q (some r) d` if it ends with `r` and leaves `d`,
`Q none d` if the thread can panic while the object is `d`, `A a d` if the program returns before the visit ends.
Other objects have any contents. -/
def Visit (o : Nat) (Q : Option R → D → Prop) (A : α → D → Prop) : D → Prog D T R α → Prop
  | d, .ret a => Q none d ∧ A a d
  | d, .panic => Q none d
  | d, .acquire _ _ k => Q none d ∧ Visit o Q A d k
  | d, .look o' k => Q none d ∧ (if o' = o then Visit o Q A d (k d) else ∀ x, Visit o Q A d (k x))
  | d, .read _ k => Q none d ∧ Visit o Q A d k
  | d, .unread _ k => Q none d ∧ Visit o Q A d k
  | d, .upgrade _ k => Q none d ∧ Visit o Q A d k
  | d, .await _ k => Q none d ∧ Visit o Q A d k
  | d, .store o' d' k => Q none d ∧ (if o' = o then Visit o Q A d' k else Visit o Q A d k)
  | d, .downgrade _ k => Q none d ∧ Visit o Q A d k
  | d, .release o' r k => Q none d ∧ (if o' = o then Q (some r) d else Visit o Q A d k)

/-- Every visit of an object does what its task says: `Does o t d r d'`: the task `t`, alone with object `o`
which contains `d`, can end with `r` and leave `d'` (`r = none`: is interrupted by a panic when there is `d'`). -/
def Faithful (Does : Nat → T → D → Option R → D → Prop) : Prog D T R α → Prop
  | .ret _ => True
  | .panic => True
  | .acquire o t k => (∀ d, Visit o (Does o t d) (fun _ _ => False) d k) ∧ Faithful Does k
  | .look _ k => ∀ d, Faithful Does (k d)
  | .read _ k => Faithful Does k
  | .unread _ k => Faithful Does k
  | .upgrade _ k => Faithful Does k
  | .await _ k => Faithful Does k
  | .store _ _ k => Faithful Does k
  | .downgrade _ k => Faithful Does k
  | .release _ _ k => Faithful Does k

/-- What becomes of an object that contains `d` when tasks are done one after the other. -/
inductive History (Does : T → D → Option R → D → Prop) (d : D) : List (T × Option R) → D → Prop
  | nil : History Does d [] d
  | snoc {l d' t r d''} : History Does d l d' → Does t d' r d'' → History Does d (l ++ [(t, r)]) d''

/-- The log of one object. -/
def logOf (o : Nat) (log : List (Event T R)) : List (T × Option R) :=
  (log.filter (·.obj == o)).map fun e => (e.task, e.result)

/-- The thread has nothing left to do. -/
def Finished (s : State D T R) (i : Nat) : Prop := s.threads[i]? = none ∨ s.threads[i]? = some (.ret ())

end Antlr.Conc

/-!
# Model of threads that share DFAs

Parsers and lexers of one grammar share their DFAs: `Arc<Vec<RwLock<DFA>>>`, src/atn_simulator.rs:19, made once per
process by `lazy_static!` in generated code (e.g. tests/gen/csvparser.rs:757-768).  `RwLock` is the one of parking_lot
0.11 (src/atn_simulator.rs:8, Cargo.toml).  Its code is not part of the repository; modelled is what its documentation
says: any number of `read` guards, beside them at most one `upgradable_read` guard, which alone can be upgraded to the
write guard; `upgrade` keeps new readers out and waits for the others to leave; a guard is dropped when its owner
panics (there is no poisoning).

A thread is a program: a tree of operations on locks and on what they protect.  An execution interleaves the operations
of the threads.  Any thread may panic at any time.
-/

namespace Antlr.Conc

/-- A program that returns a value of type `α`.  `D`: what locks protect.  `T`, `R`: what a guard is taken for,
and what came out of it; they only appear in the log. -/
inductive Prog (D T R α : Type) where
  | ret (a : α)
  | panic
  /-- `RwLock::upgradable_read` -/
  | acquire (o : Nat) (t : T) (k : Prog D T R α)
  /-- a use of what a guard derefs to -/
  | look (o : Nat) (k : D → Prog D T R α)
  /-- `RwLock::read` -/
  | read (o : Nat) (k : Prog D T R α)
  /-- drop of a read guard -/
  | unread (o : Nat) (k : Prog D T R α)
  /-- `RwLockUpgradableReadGuard::upgrade` -/
  | upgrade (o : Nat) (k : Prog D T R α)
  /-- within `upgrade`: waiting for the readers -/
  | await (o : Nat) (k : Prog D T R α)
  /-- a change through the write guard -/
  | store (o : Nat) (d : D) (k : Prog D T R α)
  /-- `RwLockWriteGuard::downgrade_to_upgradable` -/
  | downgrade (o : Nat) (k : Prog D T R α)
  /-- drop of an upgradable guard -/
  | release (o : Nat) (r : R) (k : Prog D T R α)

variable {D T R α β : Type}

/-- Sequencing; a panic skips the rest. -/
def Prog.bind (f : α → Prog D T R β) : Prog D T R α → Prog D T R β
  | .ret a => f a
  | .panic => .panic
  | .acquire o t k => .acquire o t (k.bind f)
  | .look o k => .look o fun d => (k d).bind f
  | .read o k => .read o (k.bind f)
  | .unread o k => .unread o (k.bind f)
  | .upgrade o k => .upgrade o (k.bind f)
  | .await o k => .await o (k.bind f)
  | .store o d k => .store o d (k.bind f)
  | .downgrade o k => .downgrade o (k.bind f)
  | .release o r k => .release o r (k.bind f)

/-- A value, or a panic. -/
def Prog.lift : Option α → Prog D T R α
  | some a => .ret a
  | none => .panic

/-- A `RwLock`. -/
structure Lock where
  /-- the thread with the upgradable guard or the write guard -/
  up : Option Nat := none
  /-- the writer bit: an upgrade waits or has happened -/
  writer : Bool := false
  /-- the threads with read guards -/
  readers : List Nat := []

/-- An entry of the log: thread `thread` was done with lock `obj`; `result = none`: it panicked. -/
structure Event (T R : Type) where
  thread : Nat
  obj : Nat
  task : T
  result : Option R

/-- Threads, locks and what they protect.  `tasks` (for which task a lock is held) and `log` only serve to
state properties. -/
structure State (D T R : Type) where
  objs : Nat → D
  locks : Nat → Lock
  threads : List (Prog D T R Unit)
  tasks : Nat → Option T
  log : List (Event T R)

/-- A function changed at one point. -/
def upd {γ : Type} (f : Nat → γ) (o : Nat) (x : γ) : Nat → γ := fun o' => if o' = o then x else f o'

namespace State

def setLock (s : State D T R) (o : Nat) (l : Lock) : State D T R := { s with locks := upd s.locks o l }
def go (s : State D T R) (i : Nat) (k : Prog D T R Unit) : State D T R := { s with threads := s.threads.set i k }

end State

/-- One step of thread `i`. -/
inductive Step (i : Nat) : State D T R → State D T R → Prop
  | acquire {s : State D T R} {o t k} : s.threads[i]? = some (.acquire o t k) → (s.locks o).up = none →
      Step i s { (s.setLock o { s.locks o with up := some i }).go i k with tasks := upd s.tasks o (some t) }
  | look {s : State D T R} {o k} : s.threads[i]? = some (.look o k) → Step i s (s.go i (k (s.objs o)))
  | read {s : State D T R} {o k} : s.threads[i]? = some (.read o k) → (s.locks o).writer = false →
      Step i s ((s.setLock o { s.locks o with readers := i :: (s.locks o).readers }).go i k)
  | unread {s : State D T R} {o k} : s.threads[i]? = some (.unread o k) →
      Step i s ((s.setLock o { s.locks o with readers := (s.locks o).readers.erase i }).go i k)
  | upgrade {s : State D T R} {o k} : s.threads[i]? = some (.upgrade o k) →
      Step i s ((s.setLock o { s.locks o with writer := true }).go i (.await o k))
  | await {s : State D T R} {o k} : s.threads[i]? = some (.await o k) → (s.locks o).readers = [] → Step i s (s.go i k)
  | store {s : State D T R} {o d k} : s.threads[i]? = some (.store o d k) →
      Step i s { s.go i k with objs := upd s.objs o d }
  | downgrade {s : State D T R} {o k} : s.threads[i]? = some (.downgrade o k) →
      Step i s ((s.setLock o { s.locks o with writer := false }).go i k)
  | release {s : State D T R} {o r k t} : s.threads[i]? = some (.release o r k) → s.tasks o = some t →
      Step i s { (s.setLock o { s.locks o with up := none }).go i k with
        tasks := upd s.tasks o none, log := s.log ++ [⟨i, o, t, some r⟩] }

/-- The lock after its owner panicked. -/
def Lock.without (l : Lock) (i : Nat) : Lock :=
  if l.up = some i then ⟨none, false, l.readers.filter (· != i)⟩ else { l with readers := l.readers.filter (· != i) }

/-- Thread `i` panics, wherever it stands: its guards are dropped, which is logged for the locks in `os`
(those it held an upgradable guard of). -/
inductive Crash (i : Nat) : State D T R → State D T R → Prop
  | mk {s : State D T R} {p} (os : List (Nat × T)) : s.threads[i]? = some p → (os.map (·.1)).Nodup →
      (∀ o t, (o, t) ∈ os ↔ (s.locks o).up = some i ∧ s.tasks o = some t) →
      Crash i s { s with
        threads := s.threads.set i (.ret ())
        locks := fun o => (s.locks o).without i
        tasks := fun o => if (s.locks o).up = some i then none else s.tasks o
        log := s.log ++ os.map fun x => ⟨i, x.1, x.2, none⟩ }

/-- Executions. -/
inductive Runs (s0 : State D T R) : State D T R → Prop
  | refl : Runs s0 s0
  | step {s s' i} : Runs s0 s → Step i s s' → Runs s0 s'
  | crash {s s' i} : Runs s0 s → Crash i s s' → Runs s0 s'

/-- The beginning: no locks are held. -/
def begin (objs : Nat → D) (threads : List (Prog D T R Unit)) : State D T R where
  objs := objs
  locks := fun _ => {}
  threads := threads
  tasks := fun _ => none
  log := []

end Antlr.Conc

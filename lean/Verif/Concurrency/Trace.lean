import Verif.Concurrency.TraceSpec
import Verif.Concurrency.Props

/-! # What threads say they did agrees with the log -/

namespace Antlr.Conc
open Antlr Prediction

section
variable {D T R α β : Type}

/-- The program, with the guards for the tasks `τ`, ends tasks with answers so that `Q` holds of them, added to `l`, at
any time, and `A` at the end. -/
def Outs (Q : List (Nat × T × R) → Prop) (A : (Nat → Option T) → List (Nat × T × R) → α → Prop) :
    (Nat → Option T) → List (Nat × T × R) → Prog D T R α → Prop
  | τ, l, .ret a => Q l ∧ A τ l a
  | _, l, .panic => Q l
  | τ, l, .acquire o t k => Q l ∧ (τ o = none → Outs Q A (upd τ o (some t)) l k)
  | τ, l, .look _ k => Q l ∧ ∀ d, Outs Q A τ l (k d)
  | τ, l, .read _ k => Q l ∧ Outs Q A τ l k
  | τ, l, .unread _ k => Q l ∧ Outs Q A τ l k
  | τ, l, .upgrade _ k => Q l ∧ Outs Q A τ l k
  | τ, l, .await _ k => Q l ∧ Outs Q A τ l k
  | τ, l, .store _ _ k => Q l ∧ Outs Q A τ l k
  | τ, l, .downgrade _ k => Q l ∧ Outs Q A τ l k
  | τ, l, .release o r k => Q l ∧ ∀ t, τ o = some t → Outs Q A (upd τ o none) (l ++ [(o, t, r)]) k

variable {Q : List (Nat × T × R) → Prop}

theorem Outs.now {A : (Nat → Option T) → List (Nat × T × R) → α → Prop} {τ : Nat → Option T} {l : List (Nat × T × R)}
    {p : Prog D T R α} (h : Outs Q A τ l p) : Q l := by
  cases p with
  | panic => exact h
  | _ => exact h.1

theorem Outs.bind {A : (Nat → Option T) → List (Nat × T × R) → α → Prop} {B : (Nat → Option T) → List (Nat × T × R) → β → Prop}
    {f : α → Prog D T R β} (hf : ∀ τ l a, A τ l a → Outs Q B τ l (f a)) {p : Prog D T R α} :
    ∀ {τ : Nat → Option T} {l : List (Nat × T × R)}, Outs Q A τ l p → Outs Q B τ l (p.bind f) := by
  induction p with
  | ret a => exact fun h => hf _ _ _ h.2
  | panic => exact fun h => h
  | acquire o t k ih => exact fun h => ⟨h.1, fun hn => ih (h.2 hn)⟩
  | look o k ih => exact fun h => ⟨h.1, fun d => ih d (h.2 d)⟩
  | release o r k ih => exact fun h => ⟨h.1, fun t ht => ih (h.2 t ht)⟩
  | read o k ih => exact fun h => ⟨h.1, ih h.2⟩
  | unread o k ih => exact fun h => ⟨h.1, ih h.2⟩
  | upgrade o k ih => exact fun h => ⟨h.1, ih h.2⟩
  | await o k ih => exact fun h => ⟨h.1, ih h.2⟩
  | store o d k ih => exact fun h => ⟨h.1, ih h.2⟩
  | downgrade o k ih => exact fun h => ⟨h.1, ih h.2⟩

theorem Outs.mono {Q' : List (Nat × T × R) → Prop} {A B : (Nat → Option T) → List (Nat × T × R) → α → Prop} {p : Prog D T R α}
    (hq : ∀ l, Q l → Q' l) (hA : ∀ τ l a, A τ l a → B τ l a) :
    ∀ {τ : Nat → Option T} {l : List (Nat × T × R)}, Outs Q A τ l p → Outs Q' B τ l p := by
  induction p with
  | ret a => exact fun h => ⟨hq _ h.1, hA _ _ _ h.2⟩
  | panic => exact fun h => hq _ h
  | acquire o t k ih => exact fun h => ⟨hq _ h.1, fun hn => ih (h.2 hn)⟩
  | look o k ih => exact fun h => ⟨hq _ h.1, fun d => ih d (h.2 d)⟩
  | release o r k ih => exact fun h => ⟨hq _ h.1, fun t ht => ih (h.2 t ht)⟩
  | read o k ih => exact fun h => ⟨hq _ h.1, ih h.2⟩
  | unread o k ih => exact fun h => ⟨hq _ h.1, ih h.2⟩
  | upgrade o k ih => exact fun h => ⟨hq _ h.1, ih h.2⟩
  | await o k ih => exact fun h => ⟨hq _ h.1, ih h.2⟩
  | store o d k ih => exact fun h => ⟨hq _ h.1, ih h.2⟩
  | downgrade o k ih => exact fun h => ⟨hq _ h.1, ih h.2⟩

/-! ## Executions -/

/-- The guards of thread `i`. -/
def held (s : State D T R) (i : Nat) (o : Nat) : Option T := if (s.locks o).up = some i then s.tasks o else none

theorem toldBy_append (i : Nat) (l l' : List (Event T R)) : toldBy i (l ++ l') = toldBy i l ++ toldBy i l' := by
  simp [toldBy]

/-- What each thread says stays as its program says. -/
theorem outs {level : Nat → Nat} {Q : Nat → List (Nat × T × R) → Prop} {objs : Nat → D} {threads : List (Prog D T R Unit)}
    (hs : ∀ p ∈ threads, SafeThread level p)
    (ho : ∀ (i : Nat) (p : Prog D T R Unit), threads[i]? = some p → Outs (Q i) (fun _ _ _ => True) (fun _ => none) [] p)
    {s : State D T R} (r : Runs (begin objs threads) s) :
    ∀ (i : Nat) (p : Prog D T R Unit), s.threads[i]? = some p →
      Outs (Q i) (fun _ _ _ => True) (held s i) (toldBy i s.log) p := by
  induction r with
  | refl =>
    intro i p hp
    have e : held (begin objs threads) i = fun _ => none := by
      funext o
      simp [held, begin]
    rw [e]
    exact ho i p hp
  | @step s s' j r st ih =>
    obtain ⟨h, F⟩ := fits hs r
    -- steps that leave owners, tasks and the log as they are
    have same : ∀ {k q : Prog D T R Unit}, s.threads[j]? = some q → s'.threads = s.threads.set j k → s'.tasks = s.tasks →
        s'.log = s.log → (∀ o, (s'.locks o).up = (s.locks o).up) →
        Outs (Q j) (fun _ _ _ => True) (held s j) (toldBy j s.log) k →
        ∀ (i : Nat) (p : Prog D T R Unit), s'.threads[i]? = some p →
          Outs (Q i) (fun _ _ _ => True) (held s' i) (toldBy i s'.log) p := by
      intro k q hq e1 e2 e3 e4 hk i p hp
      have eh : held s' i = held s i := by funext o; simp only [held, e2, e4]
      rw [eh, e3]
      rw [e1] at hp
      rcases set_get hq hp with ⟨rfl, rfl⟩ | ⟨-, hp⟩
      · exact hk
      · exact ih i p hp
    have lk : ∀ {o : Nat} {x : Lock}, x.up = (s.locks o).up → ∀ o', (upd s.locks o x o').up = (s.locks o').up := by
      intro o x hx o'
      by_cases e : o' = o
      · subst e; rw [upd_same, hx]
      · rw [upd_other _ _ e]
    cases st with
    | @acquire o t k hj hu =>
      intro i p hp
      rcases set_get hj hp with ⟨rfl, rfl⟩ | ⟨hne, hp⟩
      · have hk := (ih _ _ hj).2 (by simp [held, hu])
        refine Eq.mp ?_ hk
        congr 1
        funext o'
        by_cases e : o' = o
        · subst e; simp [held, State.setLock, State.go, upd_same]
        · simp [held, State.setLock, State.go, upd_other _ _ e]
      · refine Eq.mp ?_ (ih i p hp)
        congr 1
        funext o'
        by_cases e : o' = o
        · subst e; simp [held, State.setLock, State.go, upd_same, hu, Ne.symm hne]
        · simp [held, State.setLock, State.go, upd_other _ _ e]
    | look hj => exact same hj rfl rfl rfl (fun _ => rfl) ((ih _ _ hj).2 _)
    | read hj _ => exact same hj rfl rfl rfl (lk rfl) (ih _ _ hj).2
    | unread hj => exact same hj rfl rfl rfl (lk rfl) (ih _ _ hj).2
    | upgrade hj =>
      have := ih _ _ hj
      exact same hj rfl rfl rfl (lk rfl) this
    | await hj _ => exact same hj rfl rfl rfl (fun _ => rfl) (ih _ _ hj).2
    | store hj => exact same hj rfl rfl rfl (fun _ => rfl) (ih _ _ hj).2
    | downgrade hj => exact same hj rfl rfl rfl (lk rfl) (ih _ _ hj).2
    | @release o r k t hj ht =>
      have hown : (s.locks o).up = some j := ((F.lock o).up j).2 (by
        have hm : h j o = .up := (F.safe _ _ hj).1
        show (h j o).owns = true
        rw [hm]; rfl)
      intro i p hp
      rcases set_get hj hp with ⟨rfl, rfl⟩ | ⟨hne, hp⟩
      · have hk := (ih _ _ hj).2 t (by simp [held, hown, ht])
        refine Eq.mp ?_ hk
        congr 1
        · funext o'
          by_cases e : o' = o
          · subst e; simp [held, State.setLock, State.go, upd_same]
          · simp [held, State.setLock, State.go, upd_other _ _ e]
        · rw [toldBy_append]; simp [toldBy]
      · refine Eq.mp ?_ (ih i p hp)
        congr 1
        · funext o'
          by_cases e : o' = o
          · subst e; simp [held, State.setLock, State.go, upd_same, hown, Ne.symm hne]
          · simp [held, State.setLock, State.go, upd_other _ _ e]
        · rw [toldBy_append]; simp [toldBy, Ne.symm hne]
  | @crash s s' j r st ih =>
    cases st with
    | mk os hj _ hos =>
      have none : ∀ i, toldBy i (os.map fun x => (⟨j, x.1, x.2, Option.none⟩ : Event T R)) = [] := by
        intro i
        simp [toldBy]
      intro i p hp
      rcases set_get hj hp with ⟨rfl, rfl⟩ | ⟨hne, hp⟩
      · refine ⟨?_, trivial⟩
        rw [toldBy_append, none, List.append_nil]
        exact (ih _ _ hj).now
      · refine Eq.mp ?_ (ih i p hp)
        congr 1
        · funext o
          by_cases e : (s.locks o).up = some j
          · simp [held, Lock.without, e, Ne.symm hne]
          · simp [held, Lock.without, e]
        · rw [toldBy_append, none, List.append_nil]

/-! ## Programs in the middle of a visit -/

/-- The program says what `J` allows, and leaves guards as they are. -/
structure Chatty (J Q : List (Nat × T × R) → Prop) (τ : Nat → Option T) (p : Prog D T R α) : Prop where
  run : ∀ l, J l → Outs Q (fun τ' l' _ => τ' = τ ∧ J l') τ l p

variable {J : List (Nat × T × R) → Prop} {τ : Nat → Option T} (hJ : ∀ l, J l → Q l)

theorem Chatty.bind {f : α → Prog D T R β} {p : Prog D T R α} (h : Chatty J Q τ p) (hf : ∀ a, Chatty J Q τ (f a)) :
    Chatty J Q τ (p.bind f) := ⟨fun l hl => (h.run l hl).bind fun _ l' a h => by rw [h.1]; exact (hf a).run l' h.2⟩

include hJ

theorem Chatty.ret (a : α) : Chatty J Q τ (.ret a : Prog D T R α) := ⟨fun l hl => ⟨hJ l hl, rfl, hl⟩⟩
theorem Chatty.panic : Chatty J Q τ (.panic : Prog D T R α) := ⟨fun l hl => hJ l hl⟩
theorem Chatty.look {o : Nat} {k : D → Prog D T R α} (h : ∀ d, Chatty J Q τ (k d)) : Chatty J Q τ (.look o k) :=
  ⟨fun l hl => ⟨hJ l hl, fun d => (h d).run l hl⟩⟩
theorem Chatty.read {o : Nat} {k : Prog D T R α} (h : Chatty J Q τ k) : Chatty J Q τ (.read o k) := ⟨fun l hl => ⟨hJ l hl, h.run l hl⟩⟩
theorem Chatty.unread {o : Nat} {k : Prog D T R α} (h : Chatty J Q τ k) : Chatty J Q τ (.unread o k) := ⟨fun l hl => ⟨hJ l hl, h.run l hl⟩⟩
theorem Chatty.upgrade {o : Nat} {k : Prog D T R α} (h : Chatty J Q τ k) : Chatty J Q τ (.upgrade o k) := ⟨fun l hl => ⟨hJ l hl, h.run l hl⟩⟩
theorem Chatty.store {o : Nat} {d : D} {k : Prog D T R α} (h : Chatty J Q τ k) : Chatty J Q τ (.store o d k) :=
  ⟨fun l hl => ⟨hJ l hl, h.run l hl⟩⟩
theorem Chatty.downgrade {o : Nat} {k : Prog D T R α} (h : Chatty J Q τ k) : Chatty J Q τ (.downgrade o k) :=
  ⟨fun l hl => ⟨hJ l hl, h.run l hl⟩⟩
theorem Chatty.lift {f : α → Prog D T R β} (x : Option α) (hf : ∀ a, Chatty J Q τ (f a)) :
    Chatty J Q τ ((Prog.lift x).bind f) := by
  cases x with
  | none => exact Chatty.panic hJ
  | some a => exact hf a

end

section
variable {I C : Type} [TokStream I] [InputData C] {J Q : List (Said I C) → Prop} {τ : Nat → Option (Task I C)}
  (hJ : ∀ l, J l → Q l) {o : Nat}
include hJ

/-- Everything of a prediction between its lock operations. -/
theorem predict_chatty {side : I → P I C Unit} (sd : ∀ i, Chatty J Q τ (side i)) {L : Local I} {cf : Nat} :
    (∀ inp, Chatty J Q τ (startProg side o L cf inp)) ∧ ∀ n prev t mc inp, Chatty J Q τ (loopProg side o L cf n prev t mc inp) := by
  have target : ∀ prev t mc inp, Chatty J Q τ (targetProg side o L cf prev t mc inp) := by
    intro prev t mc inp
    refine .read hJ <| .look hJ fun d => .lift hJ _ fun p => (sd _).bind fun _ => .lift hJ _ ?_
    rintro ⟨reach, mc', inp'⟩
    refine .unread hJ <| .upgrade hJ <| .look hJ fun d => ?_
    cases reach with
    | none => exact .lift hJ _ fun d' => .store hJ <| .downgrade hJ <| .ret hJ _
    | some reach =>
      exact .lift hJ _ fun D => .store hJ <| .look hJ fun d1 => .lift hJ _ fun d' => .store hJ <| .downgrade hJ <| .ret hJ _
  have next : ∀ prev t mc inp, Chatty J Q τ (nextProg side o L cf prev t mc inp) := by
    intro prev t mc inp
    refine .look hJ fun d => .lift hJ _ fun e => ?_
    cases e with
    | some D => exact .ret hJ _
    | none => exact target ..
  have fin : ∀ inp f, Chatty J Q τ (endProg side o inp f) := by
    intro inp f
    exact (sd _).bind fun _ => .look hJ fun d => .lift hJ _ fun r => .ret hJ _
  constructor
  · intro inp
    refine .look hJ fun d => .lift hJ _ fun s0 => ?_
    cases s0 with
    | some s0 => exact .ret hJ _
    | none =>
      refine (sd _).bind fun _ => .lift hJ _ ?_
      rintro ⟨cs, mc, inp'⟩
      refine .upgrade hJ <| .look hJ fun d => ?_
      dsimp only
      split
      · refine .lift hJ _ fun s0 => .lift hJ _ ?_
        rintro ⟨cs', mc'⟩
        exact .lift hJ _ fun s => .store hJ <| .look hJ fun d1 => .store hJ <| .look hJ fun d2 => .lift hJ _ fun d' =>
          .store hJ <| .downgrade hJ <| .ret hJ _
      · exact .store hJ <| .look hJ fun d1 => .store hJ <| .downgrade hJ <| .ret hJ _
  · intro n
    induction n with
    | zero => exact fun _ _ _ _ => .panic hJ
    | succ n ih =>
      intro prev t mc inp
      refine (next ..).bind ?_
      rintro ⟨D, mc', inp'⟩
      refine .look hJ fun d => ?_
      split
      · exact .lift hJ _ fun p => fin ..
      · refine .lift hJ _ fun Ds => ?_
        split
        · exact fin ..
        · split
          · exact fin ..
          · split
            · exact (sd _).bind fun _ => .lift hJ _ fun r => ih ..
            · exact ih ..

/-- Everything of a match between its lock operations. -/
theorem match_chatty {side : Lexer.Lex C → P I C Unit} (sd : ∀ L, Chatty J Q τ (side L)) {env : Lexer.Env C} {fc fe : Nat}
    {start : Int} {L : Lexer.Lex C} {ds0 : Nat} : Chatty J Q τ (lexExecProg side o env fc start L fe ds0) := by
  have target : ∀ pred c s t off, Chatty J Q τ (lexTargetProg side o env fc L pred c s t off) := by
    intro pred c s t off
    refine .look hJ fun d => .lift hJ _ fun st => (sd _).bind fun _ => .lift hJ _ fun reach => .upgrade hJ <| .look hJ fun d => ?_
    split
    · split
      · exact .downgrade hJ <| .ret hJ _
      · exact .lift hJ _ fun d' => .store hJ <| .downgrade hJ <| .ret hJ _
    · refine .lift hJ _ fun r => .store hJ <| .look hJ fun d1 => ?_
      split
      · exact .downgrade hJ <| .ret hJ _
      · exact .lift hJ _ fun d' => .store hJ <| .downgrade hJ <| .ret hJ _
  have loop : ∀ sp n c s t prev, Chatty J Q τ (lexLoopProg side o env fc start L sp n c s t prev) := by
    intro sp n
    induction n with
    | zero => exact fun _ _ _ _ => .panic hJ
    | succ n ih =>
      intro c s t prev
      refine .look hJ fun d => .lift hJ _ fun et => Chatty.bind ?_ fun x => ?_
      · cases et with
        | some x => exact .ret hJ _
        | none => exact target ..
      · split
        · exact .ret hJ _
        · refine .lift hJ _ fun c' => .look hJ fun d => .lift hJ _ fun cap => ?_
          split
          · exact .ret hJ _
          · exact .lift hJ _ fun _ => ih ..
  refine .look hJ fun d => .lift hJ _ fun cap => .lift hJ _ fun t => (loop ..).bind ?_
  rintro ⟨c, prev, t'⟩
  exact (sd _).bind fun _ => .look hJ fun d => .lift hJ _ fun r => .ret hJ _

end

section
variable {I C : Type} [TokStream I] [InputData C]

theorem Many.snoc {E : Type} {S : List E → Prop} {l x : List E} (h : Many S l) (hx : S x) : Many S (l ++ x) := by
  induction h with
  | nil => have := Many.cons hx .nil; simpa using this
  | cons h1 _ ih => rw [List.append_assoc]; exact .cons h1 ih

/-- What a session says. -/
theorem Session.says (x : Session I C) : ∀ (l : List (Said I C)) (τ : Nat → Option (Task I C)),
    Outs (fun l' => ∃ y, x.Part y ∧ l' = l ++ y) (fun τ' l' _ => τ' = τ ∧ ∃ y, x.Trace y ∧ l' = l ++ y) τ l x.prog := by
  induction x with
  | stop => exact fun l τ => ⟨⟨[], rfl, by simp⟩, rfl, [], rfl, by simp⟩
  | dump o k ih =>
    intro l τ
    have q : ∃ y, (Session.dump o k).Part y ∧ l = l ++ y := ⟨[], .inl rfl, by simp⟩
    refine ⟨q, q, fun d => ⟨q, (ih d l τ).mono ?_ ?_⟩⟩
    · rintro l' ⟨y, hy, rfl⟩; exact ⟨y, .inr ⟨d, hy⟩, rfl⟩
    · rintro τ' l' - ⟨rfl, y, hy, rfl⟩; exact ⟨rfl, y, ⟨d, hy⟩, rfl⟩
  | predict side o P cf n inp k ihs ihk =>
    intro l τ
    let J : List (Said I C) → Prop := fun l' => ∃ a, Many (fun x => ∃ i, (side i).Trace x) a ∧ l' = l ++ a
    let Q : List (Said I C) → Prop := fun l' => ∃ y, (Session.predict side o P cf n inp k).Part y ∧ l' = l ++ y
    have hJ : ∀ l', J l' → Q l' := fun l' ⟨a, ha, e⟩ => ⟨a, .inl ⟨a, [], ha, .inl rfl, by simp⟩, e⟩
    have sd : ∀ τ i, Chatty J Q τ (side i).prog := by
      refine fun τ i => ⟨?_⟩
      rintro l' ⟨a, ha, rfl⟩
      refine (ihs i _ τ).mono ?_ ?_
      · rintro l' ⟨y, hy, rfl⟩
        exact ⟨a ++ y, .inl ⟨a, y, ha, .inr ⟨i, hy⟩, rfl⟩, by simp⟩
      · rintro τ' l' - ⟨rfl, y, hy, rfl⟩
        exact ⟨rfl, a ++ y, ha.snoc ⟨i, hy⟩, by simp⟩
    have last : ∀ {l' out i reports}, J l' →
        Outs Q (fun τ' l' _ => τ' = τ ∧ ∃ y, (Session.predict side o P cf n inp k).Trace y ∧ l' = l ++ y) τ
          (l' ++ [(o, .predict P cf n inp, .predict out i reports)]) (k (out, i, reports)).prog := by
      rintro l' out i reports ⟨a, ha, rfl⟩
      refine (ihk (out, i, reports) _ τ).mono ?_ ?_
      · rintro l' ⟨y, hy, rfl⟩
        exact ⟨_, .inr ⟨a, out, i, reports, y, ha, hy, rfl⟩, by simp⟩
      · rintro τ' l' - ⟨rfl, y, hy, rfl⟩
        exact ⟨rfl, _, ⟨a, out, i, reports, y, ha, hy, rfl⟩, by simp⟩
    have q0 : J l := ⟨[], .nil, by simp⟩
    show Outs Q _ τ l (Prog.bind _ (predictProg _ o P cf n inp))
    refine ⟨hJ _ q0, fun hn => ⟨hJ _ q0, fun d => ?_⟩⟩
    have eτ : upd (upd τ o (some (.predict P cf n inp))) o none = τ := by
      funext x
      by_cases e : x = o
      · subst e; rw [upd_same, hn]
      · rw [upd_other _ _ e, upd_other _ _ e]
    have sd' := sd (upd τ o (some (.predict P cf n inp)))
    refine Outs.bind (A := fun τ' l' (r : Outcome × I × List Prediction.Report) => τ' = τ ∧
      ∃ l'', J l'' ∧ l' = l'' ++ [(o, .predict P cf n inp, .predict r.1 r.2.1 r.2.2)]) ?_ ?_
    · rintro τ' l' ⟨out, i, reports⟩ ⟨rfl, l'', h1, rfl⟩
      exact last h1
    · refine ((predict_chatty hJ sd').1 _ |>.run l q0).bind ?_
      rintro _ l1 ⟨s0, mc, inp1⟩ ⟨rfl, j1⟩
      refine ((sd' _).run l1 j1).bind ?_
      rintro _ l2 - ⟨rfl, j2⟩
      cases hla : TokStream.la inp1 1 with
      | none => exact hJ _ j2
      | some r =>
        refine ((predict_chatty hJ sd').2 _ _ _ _ _ |>.run l2 j2).bind ?_
        rintro _ l3 ⟨out, inp2, reports⟩ ⟨rfl, j3⟩
        have fin : ∀ i, Outs Q (fun τ' l' (r : Outcome × I × List Prediction.Report) => τ' = τ ∧
            ∃ l'', J l'' ∧ l' = l'' ++ [(o, .predict P cf n inp, .predict r.1 r.2.1 r.2.2)])
            (upd τ o (some (.predict P cf n inp))) l3
            (Prog.release o (.predict out i reports) (.ret (out, i, reports)) : Conc.P I C _) := by
          intro i
          refine ⟨hJ _ j3, fun t ht => ?_⟩
          rw [upd_same] at ht
          cases ht
          exact ⟨(last j3).now, eτ, l3, j3, rfl⟩
        cases out with
        | noAlt a b => exact fin _
        | alt k =>
          dsimp only
          cases hx : (TokStream.seek inp2 (TokStream.index inp)).bind fun i => TokStream.release i (TokStream.mark inp).1 with
          | none => exact hJ _ j3
          | some i => exact fin i
  | lex side o env fc fe L k ihs ihk =>
    intro l τ
    let J : List (Said I C) → Prop := fun l' => ∃ a, Many (fun x => ∃ L, (side L).Trace x) a ∧ l' = l ++ a
    let Q : List (Said I C) → Prop := fun l' => ∃ y, (Session.lex side o env fc fe L k).Part y ∧ l' = l ++ y
    have hJ : ∀ l', J l' → Q l' := fun l' ⟨a, ha, e⟩ => ⟨a, .inl ⟨a, [], ha, .inl rfl, by simp⟩, e⟩
    have sd : ∀ τ i, Chatty J Q τ (side i).prog := by
      refine fun τ i => ⟨?_⟩
      rintro l' ⟨a, ha, rfl⟩
      refine (ihs i _ τ).mono ?_ ?_
      · rintro l' ⟨y, hy, rfl⟩
        exact ⟨a ++ y, .inl ⟨a, y, ha, .inr ⟨i, hy⟩, rfl⟩, by simp⟩
      · rintro τ' l' - ⟨rfl, y, hy, rfl⟩
        exact ⟨rfl, a ++ y, ha.snoc ⟨i, hy⟩, by simp⟩
    have last : ∀ {l' r L'}, J l' →
        Outs Q (fun τ' l' _ => τ' = τ ∧ ∃ y, (Session.lex side o env fc fe L k).Trace y ∧ l' = l ++ y) τ
          (l' ++ [(o, .lex env fc fe L, .lex r L')]) (k (r, L')).prog := by
      rintro l' r L' ⟨a, ha, rfl⟩
      refine (ihk (r, L') _ τ).mono ?_ ?_
      · rintro l' ⟨y, hy, rfl⟩
        exact ⟨_, .inr ⟨a, r, L', y, ha, hy, rfl⟩, by simp⟩
      · rintro τ' l' - ⟨rfl, y, hy, rfl⟩
        exact ⟨rfl, _, ⟨a, r, L', y, ha, hy, rfl⟩, by simp⟩
    have q0 : J l := ⟨[], .nil, by simp⟩
    show Outs Q _ τ l (Prog.bind _ (matchProg _ o env fc fe L))
    refine ⟨hJ _ q0, fun hn => ?_⟩
    have eτ : upd (upd τ o (some (.lex env fc fe L))) o none = τ := by
      funext x
      by_cases e : x = o
      · subst e; rw [upd_same, hn]
      · rw [upd_other _ _ e, upd_other _ _ e]
    have sd' := sd (upd τ o (some (.lex env fc fe L)))
    refine Outs.bind (A := fun τ' l' (r : Lexer.MatchRes × Lexer.Lex C) => τ' = τ ∧
      ∃ l'', J l'' ∧ l' = l'' ++ [(o, .lex env fc fe L, .lex r.1 r.2)]) ?_ ?_
    · rintro τ' l' ⟨r, L'⟩ ⟨rfl, l'', h1, rfl⟩
      exact last h1
    · refine Outs.bind (A := fun τ' l' _ => τ' = upd τ o (some (.lex env fc fe L)) ∧ J l') ?_ (Chatty.run ?_ l q0)
      · rintro _ l3 ⟨r, L'⟩ ⟨rfl, j3⟩
        refine ⟨hJ _ j3, fun t ht => ?_⟩
        rw [upd_same] at ht
        cases ht
        exact ⟨(last j3).now, eτ, l3, j3, rfl⟩
      · refine .look hJ fun d => ?_
        cases d.s0 with
        | some s0 => exact match_chatty hJ sd'
        | none =>
          dsimp only
          cases env.atn.modeToStartState[L.mode]? with
          | none => exact .ret hJ _
          | some ss =>
            refine .lift hJ _ fun st => (sd' _).bind fun _ => .lift hJ _ fun s0 => .upgrade hJ <| .look hJ fun d =>
              .lift hJ _ fun r => .store hJ <| Chatty.bind ?_ fun _ => .downgrade hJ <| match_chatty hJ sd'
            split
            · exact .ret hJ _
            · exact .look hJ fun d1 => .store hJ <| .ret hJ _

end

end Antlr.Conc

import Verif.Concurrency.Tasks
import Verif.Concurrency.Invariant

/-! # Programs in sequence -/

namespace Antlr.Conc

variable {D T R α β : Type} {level : Nat → Nat}

theorem bind_ret (p : Prog D T R α) : p.bind .ret = p := by
  induction p with
  | ret a => rfl
  | panic => rfl
  | look o k ih => simp only [Prog.bind, ih]
  | acquire o t k ih => simp [Prog.bind, ih]
  | read o k ih => simp [Prog.bind, ih]
  | unread o k ih => simp [Prog.bind, ih]
  | upgrade o k ih => simp [Prog.bind, ih]
  | await o k ih => simp [Prog.bind, ih]
  | store o d k ih => simp [Prog.bind, ih]
  | downgrade o k ih => simp [Prog.bind, ih]
  | release o r k ih => simp [Prog.bind, ih]

theorem Safe.bind {Q' : (Nat → Mode) → α → Prop} {Q : (Nat → Mode) → β → Prop} {f : α → Prog D T R β}
    {p : Prog D T R α} {h : Nat → Mode} (hp : Safe level Q' h p) (hf : ∀ h a, Q' h a → Safe level Q h (f a)) :
    Safe level Q h (p.bind f) := by
  induction p generalizing h with
  | ret a => exact hf h a hp
  | panic => trivial
  | acquire o t k ih => exact ⟨hp.1, hp.2.1, ih hp.2.2⟩
  | look o k ih => exact ⟨hp.1, fun d => ih d (hp.2 d)⟩
  | read o k ih =>
    rcases hp with ⟨h1, h2⟩ | ⟨h1, h2, h3⟩
    · exact .inl ⟨h1, ih h2⟩
    · exact .inr ⟨h1, h2, ih h3⟩
  | unread o k ih =>
    rcases hp with ⟨h1, h2⟩ | ⟨h1, h2⟩
    · exact .inl ⟨h1, ih h2⟩
    · exact .inr ⟨h1, ih h2⟩
  | upgrade o k ih => exact ⟨hp.1, hp.2.1, ih hp.2.2⟩
  | await o k ih => exact ⟨hp.1, hp.2.1, ih hp.2.2⟩
  | store o d k ih => exact ⟨hp.1, ih hp.2⟩
  | downgrade o k ih => exact ⟨hp.1, ih hp.2⟩
  | release o r k ih => exact ⟨hp.1, ih hp.2⟩

theorem Visit.bind {o : Nat} {Q : Option R → D → Prop} {A' : α → D → Prop} {A : β → D → Prop} {f : α → Prog D T R β}
    {p : Prog D T R α} {d : D} (hp : Visit o Q A' d p) (hf : ∀ a d, Q none d → A' a d → Visit o Q A d (f a)) :
    Visit o Q A d (p.bind f) := by
  induction p generalizing d with
  | ret a => exact hf a d hp.1 hp.2
  | panic => exact hp
  | acquire o t k ih => exact ⟨hp.1, ih hp.2⟩
  | look o' k ih =>
    refine ⟨hp.1, ?_⟩
    have h2 := hp.2
    split at h2
    · rename_i e; rw [if_pos e]; exact ih _ h2
    · rename_i e; rw [if_neg e]; exact fun x => ih x (h2 x)
  | read o k ih => exact ⟨hp.1, ih hp.2⟩
  | unread o k ih => exact ⟨hp.1, ih hp.2⟩
  | upgrade o k ih => exact ⟨hp.1, ih hp.2⟩
  | await o k ih => exact ⟨hp.1, ih hp.2⟩
  | store o' d' k ih =>
    refine ⟨hp.1, ?_⟩
    have h2 := hp.2
    split at h2
    · rename_i e; rw [if_pos e]; exact ih h2
    · rename_i e; rw [if_neg e]; exact ih h2
  | downgrade o k ih => exact ⟨hp.1, ih hp.2⟩
  | release o' r k ih =>
    refine ⟨hp.1, ?_⟩
    have h2 := hp.2
    split at h2
    · rename_i e; rw [if_pos e]; exact h2
    · rename_i e; rw [if_neg e]; exact ih h2

theorem Faithful.bind {Does : Nat → T → D → Option R → D → Prop} {f : α → Prog D T R β} {p : Prog D T R α}
    (hp : Faithful Does p) (hf : ∀ a, Faithful Does (f a)) : Faithful Does (p.bind f) := by
  induction p with
  | ret a => exact hf a
  | panic => trivial
  | acquire o t k ih => exact ⟨fun d => (hp.1 d).bind fun _ _ _ h => h.elim, ih hp.2⟩
  | look o k ih => exact fun d => ih d (hp d)
  | read o k ih => exact ih hp
  | unread o k ih => exact ih hp
  | upgrade o k ih => exact ih hp
  | await o k ih => exact ih hp
  | store o d k ih => exact ih hp
  | downgrade o k ih => exact ih hp
  | release o r k ih => exact ih hp

/-- A program that is safe without guards is safe with guards of higher levels. -/
theorem Safe.frame {b : Nat} {Q : (Nat → Mode) → α → Prop} {g h : Nat → Mode} {p : Prog D T R α}
    (hu : Under level b p) (hg : ∀ x, b ≤ level x → g x = .free) (hh : ∀ x, level x < b → h x = .free)
    (hp : Safe level Q g p) :
    Safe level (fun h' a => ∃ g', Q g' a ∧ (∀ x, b ≤ level x → g' x = .free) ∧
      h' = fun x => if level x < b then g' x else h x) (fun x => if level x < b then g x else h x) p := by
  have low : ∀ {o : Nat} {m : Mode} {g : Nat → Mode}, level o < b →
      (upd (fun x => if level x < b then g x else h x) o m) = fun x => if level x < b then upd g o m x else h x := by
    intro o m g ho
    funext x
    by_cases e : x = o
    · subst e; simp [upd_same, ho]
    · simp [upd_other _ _ e]
  have keep : ∀ {o : Nat} {m : Mode} {g : Nat → Mode}, level o < b → (∀ x, b ≤ level x → g x = .free) →
      ∀ x, b ≤ level x → upd g o m x = .free := by
    intro o m g ho hg x hx
    have e : x ≠ o := by rintro rfl; omega
    rw [upd_other _ _ e]; exact hg x hx
  have less : ∀ {o : Nat} {g : Nat → Mode}, level o < b → (∀ x, g x ≠ .free → level o < level x) →
      ∀ x, (if level x < b then g x else h x) ≠ .free → level o < level x := by
    intro o g ho hl x hx
    by_cases e : level x < b
    · rw [if_pos e] at hx; exact hl x hx
    · omega
  have less' : ∀ {o : Nat} {g : Nat → Mode}, level o < b → (∀ x, x ≠ o → g x ≠ .free → level o < level x) →
      ∀ x, x ≠ o → (if level x < b then g x else h x) ≠ .free → level o < level x := by
    intro o g ho hl x hxo hx
    by_cases e : level x < b
    · rw [if_pos e] at hx; exact hl x hxo hx
    · omega
  induction p generalizing g with
  | ret a => exact ⟨g, hp, hg, rfl⟩
  | panic => trivial
  | acquire o t k ih =>
    obtain ⟨u1, -, u2⟩ := hu
    refine ⟨by simp [u1, hp.1], less u1 hp.2.1, ?_⟩
    rw [low u1]
    exact ih u2 (keep u1 hg) hp.2.2
  | look o k ih =>
    obtain ⟨u1, u2⟩ := hu
    exact ⟨by simp [u1, hp.1], fun d => ih d (u2 d) hg (hp.2 d)⟩
  | read o k ih =>
    obtain ⟨u1, u2⟩ := hu
    rcases hp with ⟨h1, h2⟩ | ⟨h1, h2, h3⟩
    · refine .inl ⟨by simp [u1, h1], ?_⟩
      rw [low u1]
      exact ih u2 (keep u1 hg) h2
    · refine .inr ⟨by simp [u1, h1], less u1 h2, ?_⟩
      rw [low u1]
      exact ih u2 (keep u1 hg) h3
  | unread o k ih =>
    obtain ⟨u1, u2⟩ := hu
    rcases hp with ⟨h1, h2⟩ | ⟨h1, h2⟩
    · refine .inl ⟨by simp [u1, h1], ?_⟩
      rw [low u1]
      exact ih u2 (keep u1 hg) h2
    · refine .inr ⟨by simp [u1, h1], ?_⟩
      rw [low u1]
      exact ih u2 (keep u1 hg) h2
  | upgrade o k ih =>
    obtain ⟨u1, u2⟩ := hu
    refine ⟨by simp [u1, hp.1], less' u1 hp.2.1, ?_⟩
    rw [low u1]
    exact ih u2 (keep u1 hg) hp.2.2
  | await o k ih =>
    obtain ⟨u1, u2⟩ := hu
    refine ⟨by simp [u1, hp.1], less' u1 hp.2.1, ?_⟩
    rw [low u1]
    exact ih u2 (keep u1 hg) hp.2.2
  | store o d k ih =>
    obtain ⟨u1, u2⟩ := hu
    exact ⟨by simp [u1, hp.1], ih u2 hg hp.2⟩
  | downgrade o k ih =>
    obtain ⟨u1, u2⟩ := hu
    refine ⟨by simp [u1, hp.1], ?_⟩
    rw [low u1]
    exact ih u2 (keep u1 hg) hp.2
  | release o r k ih =>
    obtain ⟨u1, u2⟩ := hu
    refine ⟨by simp [u1, hp.1], ?_⟩
    rw [low u1]
    exact ih u2 (keep u1 hg) hp.2

/-- A program that does not use `o` during a visit of `o`. -/
theorem Uses.visit {o : Nat} {Q : Option R → D → Prop} {A : α → D → Prop} {p : Prog D T R α} {d : D}
    (hu : Under level (level o) p) (hd : Q none d) (hA : ∀ a, A a d) : Visit o Q A d p := by
  have ne : ∀ {x}, level x < level o → x ≠ o := by rintro x h rfl; exact absurd h (Nat.lt_irrefl _)
  induction p with
  | ret a => exact ⟨hd, hA a⟩
  | panic => exact hd
  | acquire x t k ih => exact ⟨hd, ih hu.2.2⟩
  | look x k ih => exact ⟨hd, by rw [if_neg (ne hu.1)]; exact fun x => ih x (hu.2 x)⟩
  | read x k ih => exact ⟨hd, ih hu.2⟩
  | unread x k ih => exact ⟨hd, ih hu.2⟩
  | upgrade x k ih => exact ⟨hd, ih hu.2⟩
  | await x k ih => exact ⟨hd, ih hu.2⟩
  | store x d k ih => exact ⟨hd, by rw [if_neg (ne hu.1)]; exact ih hu.2⟩
  | downgrade x k ih => exact ⟨hd, ih hu.2⟩
  | release x r k ih => exact ⟨hd, by rw [if_neg (ne hu.1)]; exact ih hu.2⟩

/-! ## Values that may be missing -/

theorem Safe.lift {Q : (Nat → Mode) → β → Prop} {f : α → Prog D T R β} {h : Nat → Mode} (x : Option α)
    (hf : ∀ a, x = some a → Safe level Q h (f a)) : Safe level Q h ((Prog.lift x).bind f) := by
  cases x with
  | none => trivial
  | some a => exact hf a rfl

theorem Visit.lift {o : Nat} {Q : Option R → D → Prop} {A : β → D → Prop} {f : α → Prog D T R β} {d : D} (x : Option α)
    (hd : Q none d) (hf : ∀ a, x = some a → Visit o Q A d (f a)) : Visit o Q A d ((Prog.lift x).bind f) := by
  cases x with
  | none => exact hd
  | some a => exact hf a rfl

theorem Faithful.lift {Does : Nat → T → D → Option R → D → Prop} {f : α → Prog D T R β} (x : Option α)
    (hf : ∀ a, Faithful Does (f a)) : Faithful Does ((Prog.lift x).bind f) := by
  cases x with
  | none => trivial
  | some a => exact hf a

section
variable {I C : Type} [TokStream I] [InputData C]

/-- Code that runs while `o` is held. -/
theorem Aside.safe' {b : Nat} {p : P I C Unit} (ha : Aside level b p) {h : Nat → Mode}
    (hh : ∀ x, level x < b → h x = .free) : Safe level (fun h' _ => h' = h) h p := by
  have := Safe.frame (g := bare) ha.under (fun _ _ => rfl) hh ha.safe
  have e : (fun x => if level x < b then bare x else h x) = h := by
    funext x
    by_cases hx : level x < b
    · simp [hx, hh x hx, bare]
    · simp [hx]
  rw [e] at this
  have post : ∀ (h' : Nat → Mode) (p : P I C Unit), Safe level (fun h' _ => ∃ g' : Nat → Mode, (∀ o, g' o = Mode.free) ∧
      (∀ x, b ≤ level x → g' x = .free) ∧ h' = fun x => if level x < b then g' x else h x) h' p →
      Safe level (fun h' _ => h' = h) h' p := by
    intro h' p hp
    have h2 := Safe.bind (f := fun _ => Prog.ret ()) hp (Q := fun h' _ => h' = h) (by
      rintro h'' - ⟨g', hg, -, rfl⟩
      show (fun x => if level x < b then g' x else h x) = h
      funext x
      by_cases hx : level x < b
      · simp [hx, hh x hx, hg]
      · simp [hx])
    have e2 : p.bind (fun _ => Prog.ret ()) = p := bind_ret p
    rwa [e2] at h2
  exact post h p this

theorem Aside.run {b : Nat} {p : P I C Unit} (ha : Aside level b p) {h : Nat → Mode}
    (hh : ∀ x, level x < b → h x = .free) {f : Unit → P I C β} {Q : (Nat → Mode) → β → Prop}
    (hf : Safe level Q h (f ())) : Safe level Q h (p.bind f) :=
  (ha.safe' hh).bind fun h' _ e => by rw [e]; exact hf

theorem Aside.seen {o : Nat} {p : P I C Unit} (ha : Aside level (level o) p) {Q : Option (Answer I C) → DFA → Prop}
    {A : β → DFA → Prop} {f : Unit → P I C β} {d : DFA} (hd : Q none d) (hf : Visit o Q A d (f ())) :
    Visit o Q A d (p.bind f) :=
  (ha.under.visit (A := fun _ d' => d' = d) hd fun _ => rfl).bind fun _ d' _ e => by rw [e]; exact hf

end

end Antlr.Conc

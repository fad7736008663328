import Verif.Concurrency.Session
import Verif.Concurrency.Predict
import Verif.Concurrency.Lex

/-! # Sessions use locks properly, and their visits do what predictions and matches do -/

namespace Antlr.Conc
open Antlr Prediction

variable {level : Nat → Nat} {o b : Nat}

/-! ## Levels -/

section
variable {D T R α β : Type} {use : Nat → Prop} {task : Nat → T → Prop}

theorem Uses.mono {use' : Nat → Prop} (hb : ∀ o, use o → use' o) {p : Prog D T R α} (h : Uses use task p) :
    Uses use' task p := by
  induction p with
  | ret a => trivial
  | panic => trivial
  | look x k ih => exact ⟨hb _ h.1, fun d => ih d (h.2 d)⟩
  | acquire x t k ih => exact ⟨hb _ h.1, h.2.1, ih h.2.2⟩
  | read x k ih => exact ⟨hb _ h.1, ih h.2⟩
  | unread x k ih => exact ⟨hb _ h.1, ih h.2⟩
  | upgrade x k ih => exact ⟨hb _ h.1, ih h.2⟩
  | await x k ih => exact ⟨hb _ h.1, ih h.2⟩
  | store x d k ih => exact ⟨hb _ h.1, ih h.2⟩
  | downgrade x k ih => exact ⟨hb _ h.1, ih h.2⟩
  | release x r k ih => exact ⟨hb _ h.1, ih h.2⟩

theorem Uses.bind {f : α → Prog D T R β} {p : Prog D T R α} (h : Uses use task p) (hf : ∀ a, Uses use task (f a)) :
    Uses use task (p.bind f) := by
  induction p with
  | ret a => exact hf a
  | panic => trivial
  | look x k ih => exact ⟨h.1, fun d => ih d (h.2 d)⟩
  | acquire x t k ih => exact ⟨h.1, h.2.1, ih h.2.2⟩
  | read x k ih => exact ⟨h.1, ih h.2⟩
  | unread x k ih => exact ⟨h.1, ih h.2⟩
  | upgrade x k ih => exact ⟨h.1, ih h.2⟩
  | await x k ih => exact ⟨h.1, ih h.2⟩
  | store x d k ih => exact ⟨h.1, ih h.2⟩
  | downgrade x k ih => exact ⟨h.1, ih h.2⟩
  | release x r k ih => exact ⟨h.1, ih h.2⟩

theorem Uses.lift {f : α → Prog D T R β} (x : Option α) (hf : ∀ a, Uses use task (f a)) :
    Uses use task ((Prog.lift x).bind f) := by
  cases x with
  | none => trivial
  | some a => exact hf a

/-- All other guards are of higher levels. -/
def Lowest (level : Nat → Nat) (o : Nat) (h : Nat → Mode) : Prop := ∀ x, x ≠ o → h x ≠ .free → level o < level x

theorem Lowest.upd {h : Nat → Mode} (hl : Lowest level o h) (m : Mode) : Lowest level o (upd h o m) := by
  intro x hx hf
  rw [upd_other _ _ hx] at hf
  exact hl x hx hf

theorem Lowest.below {h : Nat → Mode} (hl : Lowest level o h) : ∀ x, level x < level o → h x = .free := by
  intro x hx
  by_contra hf
  have hxo : x ≠ o := by rintro rfl; omega
  have := hl x hxo hf
  omega

theorem upd_upd (h : Nat → Mode) (m m' : Mode) : upd (upd h o m) o m' = upd h o m' := by
  funext x
  by_cases e : x = o
  · subst e; simp [upd_same]
  · simp [upd_other _ _ e]

theorem upd_self {h : Nat → Mode} {m : Mode} (e : h o = m) : upd h o m = h := by
  funext x
  by_cases e' : x = o
  · subst e'; simp [upd_same, e]
  · simp [upd_other _ _ e']

end

variable {I C : Type} [TokStream I] [InputData C]

/-! ## Predictions -/

section
variable {side : I → P I C Unit} (hside : ∀ i, Aside level (level o) (side i)) {L : Local I} {cf : Nat}
include hside

theorem target_safe {h : Nat → Mode} (hu : h o = .up) (hl : Lowest level o h) {prev : Nat} {t : Int} {mc : PC.Cache} {inp : I} :
    Safe level (fun h' _ => h' = h) h (targetProg side o L cf prev t mc inp) := by
  have last : ∀ {a : Nat × PC.Cache × I}, Safe level (fun h' _ => h' = h) (upd h o .wr)
      (Prog.downgrade o (.ret a) : P I C _) := by
    intro a
    refine ⟨upd_same .., ?_⟩
    rw [upd_upd, upd_self hu]
    exact (rfl : h = h)
  refine .inl ⟨hu, by simp [upd_same, Mode.derefs], fun d => ?_⟩
  refine Safe.lift _ fun p _ => ?_
  refine (hside inp).run (hl.upd _).below ?_
  refine Safe.lift _ fun r _ => ?_
  obtain ⟨reach, mc', inp'⟩ := r
  refine .inl ⟨upd_same .., ?_⟩
  rw [upd_upd, upd_self hu]
  refine ⟨hu, hl, by simp [upd_same, Mode.derefs], fun d => ?_⟩
  cases reach with
  | none => exact Safe.lift _ fun d' _ => ⟨upd_same .., last⟩
  | some reach =>
    refine Safe.lift _ fun D _ => ⟨upd_same .., by simp [upd_same, Mode.derefs], fun d1 => ?_⟩
    exact Safe.lift _ fun d' _ => ⟨upd_same .., last⟩

theorem next_safe {h : Nat → Mode} (hu : h o = .up) (hl : Lowest level o h) {prev : Nat} {t : Int} {mc : PC.Cache} {inp : I} :
    Safe level (fun h' _ => h' = h) h (nextProg side o L cf prev t mc inp) := by
  refine ⟨by simp [hu, Mode.derefs], fun d => Safe.lift _ fun e _ => ?_⟩
  cases e with
  | some D => exact (rfl : h = h)
  | none => exact target_safe hside hu hl

theorem end_safe {h : Nat → Mode} (hu : h o = .up) (hl : Lowest level o h) {inp : I} {f : DFA → Option (Res I)} :
    Safe level (fun h' _ => h' = h) h (endProg side o inp f) := by
  refine (hside inp).run hl.below ⟨by simp [hu, Mode.derefs], fun d => Safe.lift _ fun r _ => ?_⟩
  exact (rfl : h = h)

theorem loop_safe {h : Nat → Mode} (hu : h o = .up) (hl : Lowest level o h) : ∀ {n prev : Nat} {t : Int} {mc : PC.Cache} {inp : I},
    Safe level (fun h' _ => h' = h) h (loopProg side o L cf n prev t mc inp)
  | 0, _, _, _, _ => trivial
  | n + 1, prev, t, mc, inp => by
    refine (next_safe hside hu hl).bind ?_
    rintro h' ⟨D, mc', inp'⟩ rfl
    refine ⟨by simp [hu, Mode.derefs], fun d => ?_⟩
    dsimp only
    split
    · exact Safe.lift _ fun p _ => end_safe hside hu hl
    · refine Safe.lift _ fun Ds _ => ?_
      split
      · exact end_safe hside hu hl
      · split
        · exact end_safe hside hu hl
        · split
          · exact (hside inp').run hl.below (Safe.lift _ fun r _ => loop_safe hu hl)
          · exact loop_safe hu hl

theorem start_safe {h : Nat → Mode} (hu : h o = .up) (hl : Lowest level o h) {inp : I} :
    Safe level (fun h' _ => h' = h) h (startProg side o L cf inp) := by
  have dr : (upd h o .wr o).derefs = true := by simp [upd_same, Mode.derefs]
  have last : ∀ {a : Nat × PC.Cache × I}, Safe level (fun h' _ => h' = h) (upd h o .wr)
      (Prog.downgrade o (.ret a) : P I C _) := by
    intro a
    refine ⟨upd_same .., ?_⟩
    rw [upd_upd, upd_self hu]
    exact (rfl : h = h)
  refine ⟨by simp [hu, Mode.derefs], fun d => Safe.lift _ fun s0 _ => ?_⟩
  cases s0 with
  | some s0 => exact (rfl : h = h)
  | none =>
    refine (hside inp).run hl.below (Safe.lift _ fun r _ => ?_)
    obtain ⟨cs, mc, i⟩ := r
    refine ⟨hu, hl, dr, fun d => ?_⟩
    dsimp only
    split
    · refine Safe.lift _ fun s0 _ => Safe.lift _ fun r _ => ?_
      obtain ⟨cs', mc'⟩ := r
      refine Safe.lift _ fun s _ => ⟨upd_same .., dr, fun d1 => ⟨upd_same .., dr, fun d2 => ?_⟩⟩
      exact Safe.lift _ fun d' _ => ⟨upd_same .., last⟩
    · exact ⟨upd_same .., dr, fun d1 => ⟨upd_same .., last⟩⟩

theorem predict_safe {h : Nat → Mode} (hf : h o = .free) (hl : Lowest level o h) (P : Params I) (n : Nat) (inp : I) :
    Safe level (fun h' _ => h' = h) h (predictProg side o P cf n inp) := by
  have hu : upd h o .up o = .up := upd_same ..
  have last : ∀ {a : Outcome × I × List Prediction.Report} {r : Answer I C}, Safe level (fun h' _ => h' = h) (upd h o .up)
      (Prog.release o r (.ret a) : Conc.P I C _) := by
    intro a r
    refine ⟨hu, ?_⟩
    rw [upd_upd, upd_self hf]
    exact (rfl : h = h)
  refine ⟨hf, fun x hx => hl x (by rintro rfl; exact hx hf) hx, by simp [hu, Mode.derefs], fun d => ?_⟩
  refine (start_safe hside hu (hl.upd _)).bind ?_
  rintro h' ⟨s0, mc, i⟩ rfl
  refine (hside i).run (hl.upd _).below (Safe.lift _ fun r _ => ?_)
  refine (loop_safe hside hu (hl.upd _)).bind ?_
  rintro h' ⟨out, i2, reports⟩ rfl
  cases out with
  | alt a => exact Safe.lift _ fun i _ => last
  | noAlt a b => exact last

omit hside in
theorem predict_uses {use : Nat → Prop} {task : Nat → Task I C → Prop} (sd : ∀ i, Uses use task (side i)) (hb : use o)
    {P : Params I} {n : Nat} {inp : I} (ht : task o (.predict P cf n inp)) : Uses use task (predictProg side o P cf n inp) := by
  have target : ∀ {L : Local I} {prev : Nat} {t : Int} {mc : PC.Cache} {inp : I},
      Uses use task (targetProg side o L cf prev t mc inp) := by
    intro L prev t mc inp
    refine ⟨hb, hb, fun d => Uses.lift _ fun p => (sd _).bind fun _ => Uses.lift _ ?_⟩
    rintro ⟨reach, mc', inp'⟩
    refine ⟨hb, hb, hb, fun d => ?_⟩
    cases reach with
    | none => exact Uses.lift _ fun d' => ⟨hb, hb, trivial⟩
    | some reach => exact Uses.lift _ fun D => ⟨hb, hb, fun d1 => Uses.lift _ fun d' => ⟨hb, hb, trivial⟩⟩
  have next : ∀ {L : Local I} {prev : Nat} {t : Int} {mc : PC.Cache} {inp : I},
      Uses use task (nextProg side o L cf prev t mc inp) := by
    intro L prev t mc inp
    refine ⟨hb, fun d => Uses.lift _ fun e => ?_⟩
    cases e with
    | some D => trivial
    | none => exact target
  have fin : ∀ {inp : I} {f : DFA → Option (Res I)}, Uses use task (endProg side o inp f) := by
    intro inp f
    exact (sd _).bind fun _ => ⟨hb, fun d => Uses.lift _ fun r => trivial⟩
  have loop : ∀ {L : Local I} {n prev : Nat} {t : Int} {mc : PC.Cache} {inp : I},
      Uses use task (loopProg side o L cf n prev t mc inp) := by
    intro L n
    induction n with
    | zero => intros; trivial
    | succ n ih =>
      intro prev t mc inp
      refine next.bind ?_
      rintro ⟨D, mc', inp'⟩
      refine ⟨hb, fun d => ?_⟩
      dsimp only
      split
      · exact Uses.lift _ fun p => fin
      · refine Uses.lift _ fun Ds => ?_
        split
        · exact fin
        · split
          · exact fin
          · split
            · exact (sd _).bind fun _ => Uses.lift _ fun r => ih
            · exact ih
  refine ⟨hb, ht, hb, fun d => Uses.bind ?_ ?_⟩
  · refine ⟨hb, fun d => Uses.lift _ fun s0 => ?_⟩
    cases s0 with
    | some s0 => trivial
    | none =>
      refine (sd _).bind fun _ => Uses.lift _ ?_
      rintro ⟨cs, mc, i⟩
      refine ⟨hb, hb, fun d => ?_⟩
      dsimp only
      split
      · refine Uses.lift _ fun s0 => Uses.lift _ ?_
        rintro ⟨cs', mc'⟩
        exact Uses.lift _ fun s => ⟨hb, hb, fun d1 => ⟨hb, hb, fun d2 => Uses.lift _ fun d' => ⟨hb, hb, trivial⟩⟩⟩
      · exact ⟨hb, hb, fun d1 => ⟨hb, hb, trivial⟩⟩
  · rintro ⟨s0, mc, i⟩
    refine (sd _).bind fun _ => Uses.lift _ fun r => loop.bind ?_
    rintro ⟨out, i2, reports⟩
    cases out with
    | alt a => exact Uses.lift _ fun i => ⟨hb, trivial⟩
    | noAlt a b => exact ⟨hb, trivial⟩

/-- What comes after the guard of a prediction was taken contains no visits but those of `side`. -/
theorem predict_faithful (P : Params I) (n : Nat) (inp : I) :
    Faithful (fun _ => Does (I := I) (C := C)) (predictProg side o P cf n inp) := by
  have sd : ∀ i, Faithful (fun _ => Does (I := I) (C := C)) (side i) := fun i => (hside i).faithful
  have target : ∀ {L : Local I} {prev : Nat} {t : Int} {mc : PC.Cache} {inp : I},
      Faithful (fun _ => Does (I := I) (C := C)) (targetProg side o L cf prev t mc inp) := by
    intro L prev t mc inp
    refine fun d => Faithful.lift _ fun p => (sd _).bind fun _ => Faithful.lift _ ?_
    rintro ⟨reach, mc', inp'⟩
    intro d
    cases reach with
    | none => exact Faithful.lift _ fun d' => trivial
    | some reach => exact Faithful.lift _ fun D d1 => Faithful.lift _ fun d' => trivial
  have next : ∀ {L : Local I} {prev : Nat} {t : Int} {mc : PC.Cache} {inp : I},
      Faithful (fun _ => Does (I := I) (C := C)) (nextProg side o L cf prev t mc inp) := by
    intro L prev t mc inp
    refine fun d => Faithful.lift _ fun e => ?_
    cases e with
    | some D => trivial
    | none => exact target
  have fin : ∀ {inp : I} {f : DFA → Option (Res I)}, Faithful (fun _ => Does (I := I) (C := C)) (endProg side o inp f) := by
    intro inp f
    exact (sd _).bind fun _ d => Faithful.lift _ fun r => trivial
  have loop : ∀ {L : Local I} {n prev : Nat} {t : Int} {mc : PC.Cache} {inp : I},
      Faithful (fun _ => Does (I := I) (C := C)) (loopProg side o L cf n prev t mc inp) := by
    intro L n
    induction n with
    | zero => intros; trivial
    | succ n ih =>
      intro prev t mc inp
      refine next.bind ?_
      rintro ⟨D, mc', inp'⟩
      intro d
      dsimp only
      split
      · exact Faithful.lift _ fun p => fin
      · refine Faithful.lift _ fun Ds => ?_
        split
        · exact fin
        · split
          · exact fin
          · split
            · exact (sd _).bind fun _ => Faithful.lift _ fun r => ih
            · exact ih
  refine ⟨fun d => predict_visit (f := .ret) hside P cf n inp d ?_, fun d => Faithful.bind ?_ ?_⟩
  · rw [bind_ret]; rfl
  · refine fun d => Faithful.lift _ fun s0 => ?_
    cases s0 with
    | some s0 => trivial
    | none =>
      refine (sd _).bind fun _ => Faithful.lift _ ?_
      rintro ⟨cs, mc, i⟩
      intro d
      dsimp only
      split
      · refine Faithful.lift _ fun s0 => Faithful.lift _ ?_
        rintro ⟨cs', mc'⟩
        exact Faithful.lift _ fun s d1 d2 => Faithful.lift _ fun d' => trivial
      · exact fun d1 => trivial
  · rintro ⟨s0, mc, i⟩
    refine (sd _).bind fun _ => Faithful.lift _ fun r => loop.bind ?_
    rintro ⟨out, i2, reports⟩
    cases out with
    | alt a => exact Faithful.lift _ fun i => trivial
    | noAlt a b => trivial

end

/-! ## Matches -/

section
variable {side : Lexer.Lex C → P I C Unit} (hside : ∀ L, Aside level (level o) (side L)) {env : Lexer.Env C} {fc : Nat}
include hside

theorem match_safe {h : Nat → Mode} (hf : h o = .free) (hl : Lowest level o h) (fe : Nat) (L : Lexer.Lex C) :
    Safe level (fun h' _ => h' = h) h (matchProg side o env fc fe L) := by
  have hu : upd h o .up o = .up := upd_same ..
  have du : (upd h o .up o).derefs = true := by simp [upd_same, Mode.derefs]
  have dw : (upd (upd h o .up) o .wr o).derefs = true := by simp [upd_same, Mode.derefs]
  have hb := (hl.upd .up).below
  have down : ∀ {α : Type} {Q : (Nat → Mode) → α → Prop} {k : P I C α}, Safe level Q (upd h o .up) k →
      Safe level Q (upd (upd h o .up) o .wr) (Prog.downgrade o k) := by
    intro α Q k hk
    refine ⟨upd_same .., ?_⟩
    rwa [upd_upd, upd_upd]
  have target : ∀ {pred : Int → Int → Option Bool} {c : Lexer.Cursor C} {s : Nat} {t off : Int},
      Safe level (fun h' _ => h' = upd h o .up) (upd h o .up) (lexTargetProg side o env fc L pred c s t off) := by
    intro pred c s t off
    refine ⟨du, fun d => Safe.lift _ fun st _ => (hside _).run hb (Safe.lift _ fun reach _ => ?_)⟩
    refine ⟨hu, hl.upd _, dw, fun d => ?_⟩
    split
    · split
      · exact down rfl
      · exact Safe.lift _ fun d' _ => ⟨upd_same .., down rfl⟩
    · refine Safe.lift _ fun r _ => ⟨upd_same .., dw, fun d1 => ?_⟩
      split
      · exact down rfl
      · exact Safe.lift _ fun d' _ => ⟨upd_same .., down rfl⟩
  have loop : ∀ {start : Int} {sp : Int → Int → Lexer.Cursor C → Bool} {fuel : Nat} {c : Lexer.Cursor C} {s : Nat}
      {symbol : Int} {prev : Option Lexer.Accept}, Safe level (fun h' _ => h' = upd h o .up) (upd h o .up)
        (lexLoopProg side o env fc start L sp fuel c s symbol prev) := by
    intro start sp fuel
    induction fuel with
    | zero => intros; trivial
    | succ fuel ih =>
      intro c s symbol prev
      refine ⟨du, fun d => Safe.lift _ fun et _ => Safe.bind (Q' := fun h' _ => h' = upd h o .up) ?_ ?_⟩
      · cases et with
        | some x => exact (rfl : upd h o .up = upd h o .up)
        | none => exact target
      · rintro h' x rfl
        split
        · exact (rfl : upd h o .up = upd h o .up)
        · refine Safe.lift _ fun c' _ => ⟨du, fun d => Safe.lift _ fun cap _ => ?_⟩
          split
          · exact (rfl : upd h o .up = upd h o .up)
          · exact Safe.lift _ fun _ _ => ih
  have exec : ∀ {start : Int} {ds0 : Nat}, Safe level (fun h' _ => h' = upd h o .up) (upd h o .up)
      (lexExecProg side o env fc start L fe ds0) := by
    intro start ds0
    refine ⟨du, fun d => Safe.lift _ fun cap _ => Safe.lift _ fun symbol _ => loop.bind ?_⟩
    rintro h' ⟨c, prev, symbol'⟩ rfl
    exact (hside _).run hb ⟨du, fun d => Safe.lift _ fun r _ => (rfl : upd h o .up = upd h o .up)⟩
  refine ⟨hf, fun x hx => hl x (by rintro rfl; exact hx hf) hx, ?_⟩
  refine Safe.bind (Q' := fun h' _ => h' = upd h o .up) ⟨du, fun d => ?_⟩ ?_
  · dsimp only
    split
    · exact exec
    · split
      · exact (rfl : upd h o .up = upd h o .up)
      · refine Safe.lift _ fun st _ => (hside _).run hb (Safe.lift _ fun s _ => ⟨hu, hl.upd _, dw, fun d => ?_⟩)
        refine Safe.lift _ fun r _ => ⟨upd_same .., ?_⟩
        refine Safe.bind (Q' := fun h' _ => h' = upd (upd h o .up) o .wr) ?_ ?_
        · split
          · exact (rfl : upd (upd h o .up) o .wr = _)
          · exact ⟨dw, fun d1 => ⟨upd_same .., rfl⟩⟩
        · rintro h' - rfl
          exact down exec
  · rintro h' ⟨r, L'⟩ rfl
    refine ⟨hu, ?_⟩
    rw [upd_upd, upd_self hf]
    exact (rfl : h = h)

omit hside in
theorem match_uses {use : Nat → Prop} {task : Nat → Task I C → Prop} (sd : ∀ L, Uses use task (side L)) (hb : use o)
    {fe : Nat} {L : Lexer.Lex C} (ht : task o (.lex env fc fe L)) : Uses use task (matchProg side o env fc fe L) := by
  have target : ∀ {pred : Int → Int → Option Bool} {c : Lexer.Cursor C} {s : Nat} {t off : Int},
      Uses use task (lexTargetProg side o env fc L pred c s t off) := by
    intro pred c s t off
    refine ⟨hb, fun d => Uses.lift _ fun st => (sd _).bind fun _ => Uses.lift _ fun reach => ⟨hb, hb, fun d => ?_⟩⟩
    split
    · split
      · exact ⟨hb, trivial⟩
      · exact Uses.lift _ fun d' => ⟨hb, hb, trivial⟩
    · refine Uses.lift _ fun r => ⟨hb, hb, fun d1 => ?_⟩
      split
      · exact ⟨hb, trivial⟩
      · exact Uses.lift _ fun d' => ⟨hb, hb, trivial⟩
  have loop : ∀ {start : Int} {sp : Int → Int → Lexer.Cursor C → Bool} {fuel : Nat} {c : Lexer.Cursor C} {s : Nat}
      {symbol : Int} {prev : Option Lexer.Accept}, Uses use task (lexLoopProg side o env fc start L sp fuel c s symbol prev) := by
    intro start sp fuel
    induction fuel with
    | zero => intros; trivial
    | succ fuel ih =>
      intro c s symbol prev
      refine ⟨hb, fun d => Uses.lift _ fun et => Uses.bind ?_ fun x => ?_⟩
      · cases et with
        | some x => trivial
        | none => exact target
      · split
        · trivial
        · refine Uses.lift _ fun c' => ⟨hb, fun d => Uses.lift _ fun cap => ?_⟩
          split
          · trivial
          · exact Uses.lift _ fun _ => ih
  have exec : ∀ {start : Int} {ds0 : Nat}, Uses use task (lexExecProg side o env fc start L fe ds0) := by
    intro start ds0
    refine ⟨hb, fun d => Uses.lift _ fun cap => Uses.lift _ fun symbol => loop.bind ?_⟩
    rintro ⟨c, prev, symbol'⟩
    exact (sd _).bind fun _ => ⟨hb, fun d => Uses.lift _ fun r => trivial⟩
  refine ⟨hb, ht, Uses.bind ⟨hb, fun d => ?_⟩ ?_⟩
  · dsimp only
    split
    · exact exec
    · split
      · trivial
      · refine Uses.lift _ fun st => (sd _).bind fun _ => Uses.lift _ fun s => ⟨hb, hb, fun d => ?_⟩
        refine Uses.lift _ fun r => ⟨hb, Uses.bind ?_ fun _ => ⟨hb, exec⟩⟩
        split
        · trivial
        · exact ⟨hb, fun d1 => ⟨hb, trivial⟩⟩
  · rintro ⟨r, L'⟩
    exact ⟨hb, trivial⟩

theorem match_faithful (fe : Nat) (L : Lexer.Lex C) :
    Faithful (fun _ => Does (I := I) (C := C)) (matchProg side o env fc fe L) := by
  have sd : ∀ i, Faithful (fun _ => Does (I := I) (C := C)) (side i) := fun i => (hside i).faithful
  have target : ∀ {pred : Int → Int → Option Bool} {c : Lexer.Cursor C} {s : Nat} {t off : Int},
      Faithful (fun _ => Does (I := I) (C := C)) (lexTargetProg side o env fc L pred c s t off) := by
    intro pred c s t off
    refine fun d => Faithful.lift _ fun st => (sd _).bind fun _ => Faithful.lift _ fun reach d => ?_
    dsimp only
    split
    · split
      · trivial
      · exact Faithful.lift _ fun d' => trivial
    · refine Faithful.lift _ fun r d1 => ?_
      dsimp only
      split
      · trivial
      · exact Faithful.lift _ fun d' => trivial
  have loop : ∀ {start : Int} {sp : Int → Int → Lexer.Cursor C → Bool} {fuel : Nat} {c : Lexer.Cursor C} {s : Nat}
      {symbol : Int} {prev : Option Lexer.Accept}, Faithful (fun _ => Does (I := I) (C := C))
        (lexLoopProg side o env fc start L sp fuel c s symbol prev) := by
    intro start sp fuel
    induction fuel with
    | zero => intros; trivial
    | succ fuel ih =>
      intro c s symbol prev
      refine fun d => Faithful.lift _ fun et => Faithful.bind ?_ fun x => ?_
      · cases et with
        | some x => trivial
        | none => exact target
      · split
        · trivial
        · refine Faithful.lift _ fun c' d => Faithful.lift _ fun cap => ?_
          split
          · trivial
          · exact Faithful.lift _ fun _ => ih
  have exec : ∀ {start : Int} {ds0 : Nat}, Faithful (fun _ => Does (I := I) (C := C))
      (lexExecProg side o env fc start L fe ds0) := by
    intro start ds0
    refine fun d => Faithful.lift _ fun cap => Faithful.lift _ fun symbol => loop.bind ?_
    rintro ⟨c, prev, symbol'⟩
    exact (sd _).bind fun _ d => Faithful.lift _ fun r => trivial
  refine ⟨fun d => match_visit (f := .ret) hside env fc fe L d ?_, Faithful.bind (fun d => ?_) ?_⟩
  · rw [bind_ret]; rfl
  · dsimp only
    split
    · exact exec
    · split
      · trivial
      · refine Faithful.lift _ fun st => (sd _).bind fun _ => Faithful.lift _ fun s d => ?_
        refine Faithful.lift _ fun r => Faithful.bind ?_ fun _ => exec
        split
        · trivial
        · exact fun d1 => trivial
  · rintro ⟨r, L'⟩
    trivial

end

end Antlr.Conc

namespace Antlr.Conc
open Antlr Prediction

variable {level : Nat → Nat} {I C : Type} [TokStream I] [InputData C]

theorem Session.aside (s : Session I C) : ∀ {b : Nat}, s.Ordered level b → Aside level b s.prog := by
  induction s with
  | stop => exact fun _ => ⟨trivial, fun _ => rfl, trivial⟩
  | predict side o P cf n inp k ihs ihk =>
    rintro b ⟨hb, hs, hk⟩
    have hside := fun i => ihs i (hs i)
    refine ⟨Uses.bind (predict_uses (fun i => (hside i).under.mono fun _ h => Nat.lt_trans h hb) hb trivial) fun a => (ihk a (hk a)).under, ?_,
      Faithful.bind (predict_faithful hside P n inp) fun a => (ihk a (hk a)).faithful⟩
    refine Safe.bind (predict_safe hside rfl (fun x _ h => (h rfl).elim) P n inp) ?_
    rintro h a rfl
    exact (ihk a (hk a)).safe
  | lex side o env fc fe L k ihs ihk =>
    rintro b ⟨hb, hs, hk⟩
    have hside := fun i => ihs i (hs i)
    refine ⟨Uses.bind (match_uses (fun i => (hside i).under.mono fun _ h => Nat.lt_trans h hb) hb trivial) fun a => (ihk a (hk a)).under, ?_,
      Faithful.bind (match_faithful hside fe L) fun a => (ihk a (hk a)).faithful⟩
    refine Safe.bind (match_safe hside rfl (fun x _ h => (h rfl).elim) fe L) ?_
    rintro h a rfl
    exact (ihk a (hk a)).safe
  | dump o k ih =>
    rintro b ⟨hb, hk⟩
    refine ⟨⟨hb, hb, fun d => ⟨hb, (ih d (hk d)).under⟩⟩, ?_, fun d => (ih d (hk d)).faithful⟩
    refine .inr ⟨rfl, fun x h => (h rfl).elim, by simp [upd_same, Mode.derefs], fun d => .inr ⟨upd_same .., ?_⟩⟩
    rw [upd_upd, upd_self (h := bare) (m := .free) rfl]
    exact (ih d (hk d)).safe

end Antlr.Conc

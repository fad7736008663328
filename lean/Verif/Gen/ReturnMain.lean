import Verif.Gen.ReturnRec

/-! # The code of the rules returns -/

namespace Antlr.Gen
open Antlr ParserSpec ErrorSpec ErrorLemmas ErrorProps LL1Spec LL1Props GenSpec

set_option linter.unusedSectionVars false
variable {I S : Type} [TokStream I]
variable {C : Cfg I S} {T : Nat → Tok} {V : I → Nat → Prop} {ix : Nat → Int} {Inv : S → Prop} {N K D : Nat}
variable {pr : Nat → Int → Int → Prop} {Ch : Nat → Choice → Prop} {Ok : Int → Prop}

/-- The outcome if nothing is said about progress. -/
abbrev Ends' (C : Cfg I S) (T : Nat → Tok) (V : I → Nat → Prop) (ix : Nat → Int) (Inv : S → Prop) (N R : Nat) (cs : List (Nat × Nat))
    (b : Bool) : Except PErr Unit → GS I S → Prop :=
  Outcome C T V ix Inv N R cs fun _ s' n' => b = true → rank C T ix N s'.es.eh n' < R

/-- The code `c` returns where the rank is `R` and the next token of type `t`. -/
def Goes (C : Cfg I S) (T : Nat → Tok) (V : I → Nat → Prop) (ix : Nat → Int) (Inv : S → Prop) (N K D R : Nat) (r : Nat) (t : Int)
    (h : Nat) (b : Bool) (c : Code) : Prop :=
  ∀ (s : GS I S) (n : Nat) (cs : List (Nat × Nat)), In r cs → Sane C V Inv N s n cs → (T n).ttype = t →
    rank C T ix N s.es.eh n = R → cs.length + h + D * R ≤ K →
    Halts (fun m => run C m c s) (Ends' C T V ix Inv N R cs b)

/-- Everything returns where the rank is `R`. -/
structure All (C : Cfg I S) (T : Nat → Tok) (V : I → Nat → Prop) (ix : Nat → Int) (Inv : S → Prop)
    (pr : Nat → Int → Int → Prop) (N K D R : Nat) : Prop where
  code : ∀ r t h b c, Settles C.rules pr C.bail t h b c → Part C.rules r c → Goes C T V ix Inv N K D R r t h b c
  piece : ∀ r c, Part C.rules r c → ∀ (s : GS I S) (n : Nat) (cs : List (Nat × Nat)), In r cs → Sane C V Inv N s n cs →
    rank C T ix N s.es.eh n = R → cs.length + D + D * R ≤ K → Halts (fun m => run C m c s) (Ends' C T V ix Inv N R cs false)
  star : ∀ r st back ch exit bodyAlt body, Part C.rules r (.star st back ch exit bodyAlt body) →
    ∀ (k : Int) (s : GS I S) (n : Nat) (cs : List (Nat × Nat)), In r cs → Sane C V Inv N s n cs →
    rank C T ix N s.es.eh n = R → cs.length + D + D * R ≤ K → Answers pr ch (T n).ttype k →
    Halts (fun m => loop C m back ch exit bodyAlt body k s) (Ends' C T V ix Inv N R cs false)
  plus : ∀ r st back ch exit bodyAlt body, Part C.rules r (.plus st back ch exit bodyAlt body) →
    ∀ (k : Int) (s : GS I S) (n : Nat) (cs : List (Nat × Nat)), In r cs → Sane C V Inv N s n cs →
    rank C T ix N s.es.eh n = R → cs.length + D + D * R ≤ K → Answers pr ch (T n).ttype k → k ≠ exit → k ≠ 0 →
    Halts (fun m => plusLoop C m back ch exit bodyAlt body k s) (Ends' C T V ix Inv N R cs false)
  ops : ∀ (r : Nat) start sel prims entry back ch opSel ops,
    C.rules[r]? = some (.recursive start sel prims entry back ch opSel ops) →
    ∀ (k inv : Int) (s : GS I S) (n c : Nat) (cs : List (Nat × Nat)), Sane C V Inv N s n ((c, r) :: cs) →
    (cs = [] → inv < 0) → (∀ r0, In r0 cs → CallsRule C.env.atn inv r0 r) →
    rank C T ix N s.es.eh n = R → cs.length + 1 + D + D * R ≤ K → Answers pr ch (T n).ttype k →
    Halts (fun m => opLoop C m r start (ids cs).head? inv back ch opSel ops k s)
      fun x s' => ∃ c', Ends' C T V ix Inv N R ((c', r) :: cs) false x s'

theorem room {L h D R R' K : Nat} (hK : L + h + D * R ≤ K) (hR : R' < R) : L + h + D + D * R' ≤ K := by
  have : D * (R' + 1) ≤ D * R := Nat.mul_le_mul_left _ hR
  rw [Nat.mul_succ] at this
  omega

section
variable {R r : Nat} {s : GS I S} {n : Nat} {cs : List (Nat × Nat)}

/-- What was shown for a smaller rank. -/
theorem Ends'.less {R' : Nat} {b b' : Bool} {x : Except PErr Unit} {s' : GS I S} (h : Ends' C T V ix Inv N R' cs b x s') (hR : R' < R) :
    Ends' C T V ix Inv N R cs b' x s' :=
  h.mono (Nat.le_of_lt hR) fun _ _ _ _ h1 _ _ => Nat.lt_of_le_of_lt h1 hR

/-- From some step on: either the rank is smaller, or it is as if nothing had happened. -/
theorem resume (W : World C T V ix N K) (hlt : ∀ R' < R, All C T V ix Inv pr N K D R') {t : Int} {h : Nat} {b : Bool} {c : Code}
    (hp : Part C.rules r c) {n0 : Nat} {eh0 : EH} (hn0 : n0 ≤ N) (ht : (T n0).ttype = t) (hR : rank C T ix N eh0 n0 = R)
    (hin : In r cs) (hs : Sane C V Inv N s n cs) (hr : rank C T ix N s.es.eh n ≤ R) (hK : cs.length + h + D * R ≤ K)
    (hg : rank C T ix N s.es.eh n = R → (T n).ttype = t → Goes C T V ix Inv N K D R r t h b c) :
    Halts (fun m => run C m c s) (Ends' C T V ix Inv N R cs b) := by
  rcases Nat.lt_or_eq_of_le hr with hlt' | heq
  · have := room hK hlt'
    exact ((hlt _ hlt').piece r c hp s n cs hin hs rfl (by omega)).mono fun x s' hx => hx.less hlt'
  · have ht' : (T n).ttype = t := by rw [← ht]; exact rank_type W.eof hn0 hs.le (heq.trans hR.symm)
    exact hg heq ht' s n cs hin hs ht' heq hK

/-- A step that can return with an error and does not call anything. -/
theorem stepOut {α : Type} {b : Bool} {r : Nat → Out I S α} {Q : α → GS I S → Nat → Prop}
    (h : Halts r (Outcome C T V ix Inv N R cs Q)) (hq : ∀ a s' n', Q a s' n' → b = true → rank C T ix N s'.es.eh n' < R) :
    Halts (fun m => andThen (r m) fun _ s => ret () s) (Ends' C T V ix Inv N R cs b) := by
  refine h.andThen ?_ ?_
  · rintro a s1 ⟨n1, h1, h2, h3⟩
    exact .now (x := .ok ()) (s' := s1) (fun m => rfl) ⟨n1, h1, h2, hq a s1 n1 h3⟩
  · intro e s1 hx; exact hx

/-- The alternative that `head` leads to. -/
theorem armed (W : World C T V ix N K) (hd : Decides C T V ix Inv N pr Ch) (hlt : ∀ R' < R, All C T V ix Inv pr N K D R')
    {t : Int} {h : Nat} {b : Bool} {st : Int} {ch : Choice} (hst : Syncs C.env.atn st) (hch : Ch r ch) {f : Int → Int} {alts : List Code}
    (hp : ∀ a ∈ alts, Part C.rules r a)
    (hg : ∀ k a, Answers pr ch t k → pick alts (f k) = some a → Goes C T V ix Inv N K D R r t h b a)
    (hb : b = true → ∀ k, Answers pr ch t k → pick alts (f k) ≠ none)
    (hin : In r cs) (hs : Sane C V Inv N s n cs) (ht : (T n).ttype = t) (hR : rank C T ix N s.es.eh n = R)
    (hK : cs.length + h + D * R ≤ K) :
    Halts (fun m => andThen (head C m st ch s) fun k s => match pick alts (f k) with
      | some a => run C m a s
      | none => ret () s) (Ends' C T V ix Inv N R cs b) := by
  have hh := head_halts W hd hs hin hst hch
  rw [hR] at hh
  refine hh.andThen ?_ ?_
  · rintro k s1 ⟨n1, h1, h2, h3⟩
    cases hk : pick alts (f k) with
    | none =>
      refine .now (x := .ok ()) (s' := s1) (fun m => rfl) ⟨n1, h1, h2, fun hbt => ?_⟩
      rcases Nat.lt_or_eq_of_le h2 with hl | he
      · exact hl
      · have ht' : (T n1).ttype = t := by rw [← ht]; exact rank_type W.eof hs.le h1.le (he.trans hR.symm)
        rw [ht'] at h3
        exact absurd hk (hb hbt k h3)
    | some a =>
      have ha : a ∈ alts := by
        unfold pick at hk
        split at hk
        · exact List.mem_of_getElem? hk
        · cases hk
      refine resume W hlt (hp a ha) hs.le ht hR hin h1 h2 hK fun he ht' => ?_
      rw [ht'] at h3
      exact hg k a h3 hk
  · intro e s1 hx; exact hx

/-- After the body of a loop: once more the head, then on with a smaller rank. -/
theorem loop_at (W : World C T V ix N K) (hd : Decides C T V ix Inv N pr Ch) (hlt : ∀ R' < R, All C T V ix Inv pr N K D R')
    {st back : Int} {ch : Choice} {exit bodyAlt : Int} {body : Code} (hp : Part C.rules r (.star st back ch exit bodyAlt body))
    (hst : Syncs C.env.atn back) (hch : Ch r ch) (hin : In r cs) (hs : Sane C V Inv N s n cs) (hR : rank C T ix N s.es.eh n = R)
    {h : Nat} (hK : cs.length + h + D * R ≤ K) {k : Int} (hk : k ≠ exit → k ≠ 0 → k = bodyAlt)
    (hb : k ≠ exit → k ≠ 0 → Halts (fun m => run C m body s) (Ends' C T V ix Inv N R cs true)) (b : Bool)
    (hbk : b = true → k ≠ exit ∧ k ≠ 0) :
    Halts (fun m => loop C m back ch exit bodyAlt body k s) (Ends' C T V ix Inv N R cs b) := by
  by_cases hx : k = exit ∨ k = 0
  · refine .succ (b := fun _ => ret () s) (fun m => by rw [loop, if_pos hx]) ?_
    refine .now (x := .ok ()) (s' := s) (fun m => rfl) ⟨n, hs, Nat.le_of_eq hR, fun hbt => ?_⟩
    have := hbk hbt
    rcases hx with hx | hx
    · exact absurd hx this.1
    · exact absurd hx this.2
  · have h1 : k ≠ exit := fun e => hx (.inl e)
    have h2 : k ≠ 0 := fun e => hx (.inr e)
    refine .succ (b := fun m => andThen (run C m body s) fun _ s => andThen (head C m back ch s) fun k s =>
      loop C m back ch exit bodyAlt body k s) (fun m => by rw [loop, if_neg hx, if_pos (hk h1 h2)]) ?_
    refine (hb h1 h2).andThen ?_ fun e s1 hx => hx
    rintro - s1 ⟨n1, g1, g2, g3⟩
    refine (head_halts W hd g1 hin hst hch).andThen ?_ fun e s2 hx => ?_
    · rintro k2 s2 ⟨n2, l1, l2, l3⟩
      have hl : rank C T ix N s2.es.eh n2 < R := Nat.lt_of_le_of_lt l2 (g3 rfl)
      have := room hK hl
      exact ((hlt _ hl).star r st back ch exit bodyAlt body hp k2 s2 n2 cs hin l1 rfl (by omega) l3).mono fun x s' hx => hx.less hl
    · have : Outcome C T V ix Inv N (rank C T ix N s1.es.eh n1) cs (fun (_ : Unit) s' n' => b = true →
          rank C T ix N s'.es.eh n' < R) (.error e) s2 := hx
      exact this.mono g2 fun _ _ _ _ _ h => h

/-- After the body of a `+` loop. -/
theorem plus_tail (W : World C T V ix N K) (hd : Decides C T V ix Inv N pr Ch) (hlt : ∀ R' < R, All C T V ix Inv pr N K D R')
    {st back : Int} {ch : Choice} {exit bodyAlt : Int} {body : Code} (hp : Part C.rules r (.plus st back ch exit bodyAlt body))
    (hst : Syncs C.env.atn back) (hch : Ch r ch) (hin : In r cs) (hs : Sane C V Inv N s n cs) (hR : rank C T ix N s.es.eh n ≤ R)
    {h : Nat} (hK : cs.length + h + D * R ≤ K) {b : Bool} (hb : b = true → rank C T ix N s.es.eh n < R)
    (hagain : ∀ k s1 n1, Sane C V Inv N s1 n1 cs → rank C T ix N s1.es.eh n1 = R → Answers pr ch (T n1).ttype k → k ≠ exit → k ≠ 0 →
      Halts (fun m => plusLoop C m back ch exit bodyAlt body k s1) (Ends' C T V ix Inv N R cs b)) :
    Halts (fun m => andThen (head C m back ch s) fun k s =>
        if k = exit ∨ k = 0 then ret () s else plusLoop C m back ch exit bodyAlt body k s) (Ends' C T V ix Inv N R cs b) := by
  refine (head_halts W hd hs hin hst hch).andThen ?_ fun e s2 hx => ?_
  · rintro k s1 ⟨n1, l1, l2, l3⟩
    by_cases hx : k = exit ∨ k = 0
    · simp only [if_pos hx]
      exact .now (x := .ok ()) (s' := s1) (fun m => rfl) ⟨n1, l1, Nat.le_trans l2 hR, fun hbt => Nat.lt_of_le_of_lt l2 (hb hbt)⟩
    · simp only [if_neg hx]
      have h1 : k ≠ exit := fun e => hx (.inl e)
      have h2 : k ≠ 0 := fun e => hx (.inr e)
      rcases Nat.lt_or_eq_of_le (Nat.le_trans l2 hR) with hl | he
      · have := room hK hl
        exact ((hlt _ hl).plus r st back ch exit bodyAlt body hp k s1 n1 cs hin l1 rfl (by omega) l3 h1 h2).mono
          fun x s' hx => hx.less hl
      · exact hagain k s1 n1 l1 he l3 h1 h2
  · have : Outcome C T V ix Inv N (rank C T ix N s.es.eh n) cs (fun (_ : Unit) s' n' => b = true →
        rank C T ix N s'.es.eh n' < R) (.error e) s2 := hx
    exact this.mono hR fun _ _ _ _ _ h => h

/-- A `+` loop that goes on because of an answer. -/
theorem plus_at (W : World C T V ix N K) (hd : Decides C T V ix Inv N pr Ch) (hlt : ∀ R' < R, All C T V ix Inv pr N K D R')
    {st back : Int} {ch : Choice} {exit bodyAlt : Int} {body : Code} (hp : Part C.rules r (.plus st back ch exit bodyAlt body))
    (hst : Syncs C.env.atn back) (hch : Ch r ch) (hin : In r cs) (hs : Sane C V Inv N s n cs) (hR : rank C T ix N s.es.eh n = R)
    {h : Nat} (hK : cs.length + h + D * R ≤ K) {k : Int}
    (hbody : k = bodyAlt → Halts (fun m => run C m body s) (Ends' C T V ix Inv N R cs true)) (b : Bool) :
    Halts (fun m => plusLoop C m back ch exit bodyAlt body k s) (Ends' C T V ix Inv N R cs b) := by
  refine .succ (b := fun m => andThen (if k = bodyAlt then run C m body s else noViable s) fun _ s =>
      andThen (head C m back ch s) fun k s =>
        if k = exit ∨ k = 0 then ret () s else plusLoop C m back ch exit bodyAlt body k s) (fun m => by rw [plusLoop]) ?_
  by_cases hk : k = bodyAlt
  · simp only [if_pos hk]
    refine (hbody hk).andThen ?_ fun e s1 hx => hx
    rintro - s1 ⟨n1, g1, g2, g3⟩
    have g3 := g3 rfl
    have hmono : ∀ x s', Ends' C T V ix Inv N (rank C T ix N s1.es.eh n1) cs false x s' → Ends' C T V ix Inv N R cs b x s' :=
      fun x s' hx => hx.less g3
    have hroom := room hK g3
    refine (plus_tail (R := rank C T ix N s1.es.eh n1) (h := D) W hd (fun R' hR' => hlt R' (by omega)) hp hst hch hin g1
      (Nat.le_refl _) (by omega) (b := false) (by simp) ?_).mono hmono
    intro k2 s2 n2 l1 l2 l3 l4 l5
    have := (hlt _ g3).plus r st back ch exit bodyAlt body hp k2 s2 n2 cs hin l1 l2 (by omega) l3 l4 l5
    exact this
  · simp only [if_neg hk]
    obtain ⟨x, e1, e2⟩ := noViable_halts W hs hin.ne (α := Unit) (fun _ _ _ => False)
    rw [e1]
    cases x with
    | ok a => obtain ⟨-, -, -, hf⟩ := e2; exact hf.elim
    | error e =>
      refine .now (x := .error e) (s' := s) (fun m => rfl) ?_
      have : Ends' C T V ix Inv N (rank C T ix N s.es.eh n) cs b (.error e) s := e2
      rw [hR] at this
      exact this

end

/-! ## The induction -/

/-- What is assumed of the rule functions. -/
structure Setup (C : Cfg I S) (T : Nat → Tok) (V : I → Nat → Prop) (ix : Nat → Int) (Inv : S → Prop) (N K D : Nat)
    (pr : Nat → Int → Int → Prop) (Ch : Nat → Choice → Prop) : Prop where
  world : World C T V ix N K
  decides : Decides C T V ix Inv N pr Ch
  fits : Fits C.env.atn Ch C.rules
  prompt : Prompt C.rules pr C.bail (fun t => ∃ n, n ≤ N ∧ (T n).ttype = t) D

variable {R : Nat}

theorem alt_mem {α : Type} {alts : List α} {k : Int} {a : α} (hk : pick alts k = some a) : a ∈ alts := by
  unfold pick at hk
  split at hk
  · exact List.mem_of_getElem? hk
  · cases hk

theorem start_inAtn (U : Setup C T V ix Inv N K D pr Ch) {r : Nat} {start : Int} {sel : Option (Int × Choice)} {alts : List Alt}
    (hr : C.rules[r]? = some (.plain start sel alts)) : InAtn C start ∧ alts ≠ [] ∧
      ∀ st ch, sel = some (st, ch) → Syncs C.env.atn st ∧ Ch r ch := by
  obtain ⟨⟨a, h1, h2⟩, h3⟩ := U.fits.rule _ _ hr
  exact ⟨⟨a, h1, h2⟩, h3⟩

theorem goes_all (U : Setup C T V ix Inv N K D pr Ch) (hlt : ∀ R' < R, All C T V ix Inv pr N K D R') {t : Int} {h : Nat} {b : Bool}
    {c : Code} (hset : Settles C.rules pr C.bail t h b c) (hp : Part C.rules r c) : Goes C T V ix Inv N K D R r t h b c := by
  have W := U.world
  induction hset generalizing r with
  | @less h c _ ih =>
    intro s n cs hin hs ht hR hK
    exact (ih hp s n cs hin hs ht hR hK).mono fun x s' hx => hx.mono (Nat.le_refl _) fun _ _ _ _ _ _ h => by simp at h
  | nop =>
    intro s n cs hin hs ht hR hK
    refine .succ (b := fun _ => ret () s) (fun m => by rw [run]) ?_
    exact .now (x := .ok ()) (s' := s) (fun m => rfl) ⟨n, hs, Nat.le_of_eq hR, by simp⟩
  | @guard h st k msg =>
    intro s n cs hin hs ht hR hK
    have he : HasEdge C.env.atn st := U.fits.piece _ _ hp
    have hs' := hs.setState (hasEdge_inAtn he)
    refine .succ (b := fun _ => if C.guards k (s.setState st).es.p then ret () (s.setState st) else
      failedPredicate C msg (s.setState st)) (fun m => by rw [run]) ?_
    by_cases hg : C.guards k (s.setState st).es.p = true
    · simp only [hg, if_true]
      exact .now (x := .ok ()) (s' := s.setState st) (fun m => rfl) ⟨n, hs', Nat.le_of_eq hR, by simp⟩
    · simp only [hg]
      obtain ⟨x, e1, e2⟩ := failed_halts W hs' hin.ne (by exact he) msg (α := Unit) (fun _ s' n' => false = true →
        rank C T ix N s'.es.eh n' < R)
      refine .now (x := x) (s' := s.setState st) (fun m => e1) ?_
      rw [← hR]; rw [← hR] at e2; exact e2
  | @seq h b b' x y hx hy ihx ihy =>
    intro s n cs hin hs ht hR hK
    refine .succ (b := fun m => andThen (run C m x s) fun _ s => run C m y s) (fun m => by rw [run]) ?_
    refine (ihx (.seqL hp) s n cs hin hs ht hR hK).andThen ?_ fun e s1 hx => hx
    rintro - s1 ⟨n1, g1, g2, g3⟩
    cases b with
    | false =>
      exact resume (b := b') W hlt (.seqR hp) hs.le ht hR hin g1 g2 hK fun _ _ => ihy rfl (.seqR hp)
    | true =>
      have hl := g3 rfl
      have := room hK hl
      exact ((hlt _ hl).piece r y (.seqR hp) s1 n1 cs hin g1 rfl (by omega)).mono fun x s' hx => hx.less hl
  | @tok h st ty =>
    intro s n cs hin hs ht hR hK
    have he : HasEdge C.env.atn st := U.fits.piece _ _ hp
    obtain ⟨x, s', e1, e2⟩ := matchTok_halts W (hs.setState (hasEdge_inAtn he)) hin.ne (by omega) (by exact he) ty
    have hR' : rank C T ix N (s.setState st).es.eh n = R := hR
    rw [hR'] at e2
    refine .succ (b := fun _ => andThen (matchTok C ty (s.setState st)) fun _ s => ret () s) (fun m => by rw [run]) ?_
    refine stepOut (.now (fun _ => e1) e2) ?_
    intro a s' n' hq hb
    rw [decide_eq_true_eq, ← ht] at hb
    exact hq.2 hb
  | @noTok h st ty hb0 hx0 =>
    intro s n cs hin hs ht hR hK
    have he : HasEdge C.env.atn st := U.fits.piece _ _ hp
    obtain ⟨x, s', e1, e2⟩ := matchTok_halts W (hs.setState (hasEdge_inAtn he)) hin.ne (by omega) (by exact he) ty
    have hR' : rank C T ix N (s.setState st).es.eh n = R := hR
    rw [hR'] at e2
    refine .succ (b := fun _ => andThen (matchTok C ty (s.setState st)) fun _ s => ret () s) (fun m => by rw [run]) ?_
    refine stepOut (.now (fun _ => e1) e2) ?_
    intro a s' n' hq hb
    exact absurd (ht.symm.trans (hq.1 hb0)) hx0
  | @set h st types invert =>
    intro s n cs hin hs ht hR hK
    have he : HasEdge C.env.atn st := U.fits.piece _ _ hp
    obtain ⟨x, s', e1, e2⟩ := matchSet_halts W (hs.setState (hasEdge_inAtn he)) hin.ne (by omega) (by exact he) types invert
    have hR' : rank C T ix N (s.setState st).es.eh n = R := hR
    rw [hR'] at e2
    refine .succ (b := fun _ => matchSet C types invert (s.setState st)) (fun m => by rw [run]) ?_
    refine .now (fun _ => e1) (e2.mono (Nat.le_refl _) ?_)
    intro a s' n' _ _ hq hb
    rw [decide_eq_true_eq, ← ht] at hb
    exact hq.2 hb
  | @noSet h st types invert hb0 hx0 =>
    intro s n cs hin hs ht hR hK
    have he : HasEdge C.env.atn st := U.fits.piece _ _ hp
    obtain ⟨x, s', e1, e2⟩ := matchSet_halts W (hs.setState (hasEdge_inAtn he)) hin.ne (by omega) (by exact he) types invert
    have hR' : rank C T ix N (s.setState st).es.eh n = R := hR
    rw [hR'] at e2
    refine .succ (b := fun _ => matchSet C types invert (s.setState st)) (fun m => by rw [run]) ?_
    refine .now (fun _ => e1) (e2.mono (Nat.le_refl _) ?_)
    intro a s' n' _ _ hq hb
    have := hq.1 hb0
    rw [ht, hx0] at this; cases this
  | @any h st =>
    intro s n cs hin hs ht hR hK
    have he : HasEdge C.env.atn st := U.fits.piece _ _ hp
    obtain ⟨x, s', e1, e2⟩ := matchAny_halts W (hs.setState (hasEdge_inAtn he)) hin.ne (by omega) (by exact he)
    have hR' : rank C T ix N (s.setState st).es.eh n = R := hR
    rw [hR'] at e2
    refine .succ (b := fun _ => andThen (matchAny C (s.setState st)) fun _ s => ret () s) (fun m => by rw [run]) ?_
    refine stepOut (.now (fun _ => e1) e2) ?_
    intro a s' n' hq hb
    rw [decide_eq_true_eq, ← ht] at hb
    exact hq.2 hb
  | @noAny h st hb0 hx0 =>
    intro s n cs hin hs ht hR hK
    have he : HasEdge C.env.atn st := U.fits.piece _ _ hp
    obtain ⟨x, s', e1, e2⟩ := matchAny_halts W (hs.setState (hasEdge_inAtn he)) hin.ne (by omega) (by exact he)
    have hR' : rank C T ix N (s.setState st).es.eh n = R := hR
    rw [hR'] at e2
    refine .succ (b := fun _ => andThen (matchAny C (s.setState st)) fun _ s => ret () s) (fun m => by rw [run]) ?_
    refine stepOut (.now (fun _ => e1) e2) ?_
    intro a s' n' hq hb
    exact absurd (hq.1 hb0) (by rw [ht]; omega)
  | @one h b st q start a more r' hr ha iha =>
    intro s n cs hin hs ht hR hK
    obtain ⟨hc, -⟩ : CallsRule C.env.atn st r r' ∧ r' < C.rules.length := U.fits.piece _ _ hp
    obtain ⟨hst, -, -⟩ := start_inAtn U hr
    have hp' : Part C.rules r' a.code := .alt hr (by simp)
    refine .succ (b := fun m => andThen (runRule C m r' q (s.setState st)) fun _ s => ret () s) (fun m => by rw [run]) ?_
    have hR' : rank C T ix N (s.setState st).es.eh n = R := hR
    have key := rule_halts (q := q) (b := b) W (hs.setState (callsRule_inAtn hc)) (fun h => absurd h hin.ne) (fun r0 h0 => by obtain ⟨c, l, rfl⟩ := hin; obtain ⟨c', l', e⟩ := h0; cases e; exact hc) hr hst ?_
    · rw [hR'] at key
      refine stepOut key ?_
      rintro - s' n' ⟨-, hq⟩ hb
      rw [decide_eq_true_eq, ← ht] at hb
      exact hq hb
    · intro c s1 g1 g2
      refine .now (x := .ok (some a)) (s' := s1) (fun m => rfl) ⟨n, g1, by rw [g2]; exact Nat.le_refl _, ?_⟩
      intro c' s2 k1 k2
      rw [hR']
      refine iha hp' s2 n ((c', r') :: cs) .cons k1 ht ?_ (by rw [List.length_cons]; omega)
      rw [k2, g2]; exact hR
  | @many h b st q start s0 ch alts r' hr ha hb iha =>
    intro s n cs hin hs ht hR hK
    obtain ⟨hc, -⟩ : CallsRule C.env.atn st r r' ∧ r' < C.rules.length := U.fits.piece _ _ hp
    obtain ⟨hst, -, hsel⟩ := start_inAtn U hr
    obtain ⟨hsy, hch⟩ := hsel s0 ch rfl
    refine .succ (b := fun m => andThen (runRule C m r' q (s.setState st)) fun _ s => ret () s) (fun m => by rw [run]) ?_
    have hR' : rank C T ix N (s.setState st).es.eh n = R := hR
    have key := rule_halts (q := q) (b := b) W (hs.setState (callsRule_inAtn hc)) (fun h => absurd h hin.ne) (fun r0 h0 => by obtain ⟨c, l, rfl⟩ := hin; obtain ⟨c', l', e⟩ := h0; cases e; exact hc) hr hst ?_
    · rw [hR'] at key
      refine stepOut key ?_
      rintro - s' n' ⟨-, hq⟩ hb
      rw [decide_eq_true_eq, ← ht] at hb
      exact hq hb
    · intro c s1 g1 g2
      rw [hR']
      have hh := head_halts W U.decides g1 .cons hsy hch
      have hR1 : rank C T ix N s1.es.eh n = R := by rw [g2]; exact hR
      rw [hR1] at hh
      refine Halts.andThen (f := fun _ k s => ret (pick alts k) s) hh ?_ fun e s1 hx => hx
      rintro k s2 ⟨n2, k1, k2, k3⟩
      refine .now (x := .ok (pick alts k)) (s' := s2) (fun m => rfl) ⟨n2, k1, k2, ?_⟩
      have same : rank C T ix N s2.es.eh n2 = R → Answers pr ch t k := by
        intro he
        have ht' : (T n2).ttype = t := by rw [← ht]; exact rank_type W.eof hs.le k1.le (he.trans hR.symm)
        rw [← ht']; exact k3
      cases hk : pick alts k with
      | none =>
        intro hbt
        rcases Nat.lt_or_eq_of_le k2 with hl | he
        · exact hl
        · exact absurd hk (hb hbt k (same he))
      | some a =>
        intro c' s3 m1 m2
        refine resume (h := h) W hlt (.alt hr (alt_mem hk)) hs.le ht hR .cons m1 (by rw [m2]; exact k2)
          (by rw [List.length_cons]; omega) fun he _ => ?_
        exact iha k a (same (by rw [← m2]; exact he)) hk (.alt hr (alt_mem hk))
  | @recursive h st q start sel prims entry back ch opSel ops r' hbail hr ha hb iha =>
    intro s n cs hin hs ht hR hK
    obtain ⟨hc, -⟩ : CallsRule C.env.atn st r r' ∧ r' < C.rules.length := U.fits.piece _ _ hp
    obtain ⟨hst, -, hsel, hen, -, hch, -⟩ := U.fits.rule _ _ hr
    have hR' : rank C T ix N (s.setState st).es.eh n = R := hR
    have hcall : ∀ r0, In r0 cs → CallsRule C.env.atn st r0 r' := fun r0 h0 => by
      obtain ⟨c, l, rfl⟩ := hin; obtain ⟨c', l', e⟩ := h0; cases e; exact hc
    refine .succ (b := fun m => andThen (runRule C m r' q (s.setState st)) fun _ s => ret () s) (fun m => by rw [run]) ?_
    have key := rec_halts (q := q) (b := true) W U.decides hbail (hs.setState (callsRule_inAtn hc)) (fun h => absurd h hin.ne) hcall hr hst
      hsel hen hch ?_ ?_ ?_
    · rw [hR'] at key
      exact stepOut key fun _ _ _ hq => hq
    · intro a c' s2 n2 g1 g2 g3 g4
      rw [hR'] at g4 ⊢
      refine resume (h := h) W hlt (.prim hr g2) hs.le ht hR .cons g1 g4 (by rw [List.length_cons]; omega) fun _ ht' => ?_
      rw [ht'] at g3
      exact iha a g3 (.prim hr g2)
    · intro _ s2 n2 g1 g2 g3
      rw [hR'] at g2 ⊢
      rcases Nat.lt_or_eq_of_le g2 with hl | he
      · exact hl
      · have ht' : (T n2).ttype = t := by rw [← ht]; exact rank_type W.eof hs.le g1 (he.trans hR.symm)
        rw [ht'] at g3
        exact absurd g3 hb
    · intro k c' s2 n2 g1 g2 g3 g4
      rw [hR'] at g3 ⊢
      have hl := g3 rfl
      have := room hK hl
      refine ((hlt _ hl).ops r' _ _ _ _ _ _ _ _ hr k st s2 n2 c' cs g1 (fun h => absurd h hin.ne) hcall rfl (by omega) g4).mono ?_
      rintro x s' ⟨c2, hx⟩
      exact ⟨c2, hx.less hl⟩
  | @block h b st ch alts ha hb iha =>
    intro s n cs hin hs ht hR hK
    obtain ⟨hsy, hch⟩ : Syncs C.env.atn st ∧ Ch r ch := U.fits.piece _ _ hp
    refine .succ (b := fun m => andThen (head C m st ch s) fun k s => match pick alts k with
      | some a => run C m a s
      | none => ret () s) (fun m => by rw [run]; rfl) ?_
    exact armed (f := fun k => k) W U.decides hlt hsy hch (fun a ha => .block hp ha)
      (fun k a h1 h2 => iha k a h1 h2 (.block hp (alt_mem h2))) hb hin hs ht hR hK
  | @opt h b st ch off alts ha hb iha =>
    intro s n cs hin hs ht hR hK
    obtain ⟨hsy, hch⟩ : Syncs C.env.atn st ∧ Ch r ch := U.fits.piece _ _ hp
    refine .succ (b := fun m => andThen (head C m st ch s) fun k s => match pick alts (k - off) with
      | some a => run C m a s
      | none => ret () s) (fun m => by rw [run]; rfl) ?_
    exact armed (f := fun k => k - off) W U.decides hlt hsy hch (fun a ha => .opt hp ha)
      (fun k a h1 h2 => iha k a h1 h2 (.opt hp (alt_mem h2))) hb hin hs ht hR hK
  | @star h b st back ch exit bodyAlt body h1 h2 h3 ih =>
    intro s n cs hin hs ht hR hK
    obtain ⟨hsy, hbk, hch⟩ : Syncs C.env.atn st ∧ Syncs C.env.atn back ∧ Ch r ch := U.fits.piece _ _ hp
    refine .succ (b := fun m => andThen (head C m st ch s) fun k s => loop C m back ch exit bodyAlt body k s)
      (fun m => by rw [run]) ?_
    have hh := head_halts W U.decides hs hin hsy hch
    rw [hR] at hh
    refine hh.andThen ?_ fun e s1 hx => hx
    rintro k s1 ⟨n1, k1, k2, k3⟩
    rcases Nat.lt_or_eq_of_le k2 with hl | he
    · have := room hK hl
      exact ((hlt _ hl).star r st back ch exit bodyAlt body hp k s1 n1 cs hin k1 rfl (by omega) k3).mono fun x s' hx => hx.less hl
    · have ht' : (T n1).ttype = t := by rw [← ht]; exact rank_type W.eof hs.le k1.le (he.trans hR.symm)
      rw [ht'] at k3
      exact loop_at W U.decides hlt hp hbk hch hin k1 he hK (h1 k k3)
        (fun e1 e2 => ih k k3 e1 e2 (.star hp) s1 n1 cs hin k1 ht' he hK) b (fun hbt => h3 hbt k k3)
  | @plus h b st back ch exit bodyAlt body h1 h2 ih1 ih2 =>
    intro s n cs hin hs ht hR hK
    obtain ⟨hsy, hbk, hch⟩ : Syncs C.env.atn st ∧ Syncs C.env.atn back ∧ Ch r ch := U.fits.piece _ _ hp
    have hh := sync_halts W hs hin.ne hsy
    rw [hR] at hh
    refine .succ (b := fun m => andThen (sync C m (s.setState st)) fun _ s => plusLoop C m back ch exit bodyAlt body bodyAlt s)
      (fun m => by rw [run]) ?_
    refine hh.andThen ?_ fun e s1 hx => hx
    rintro - s1 ⟨n1, k1, k2, -⟩
    refine .succ (b := fun m => andThen (run C m body s1) fun _ s =>
      andThen (head C m back ch s) fun k s =>
        if k = exit ∨ k = 0 then ret () s else plusLoop C m back ch exit bodyAlt body k s)
      (fun m => by rw [plusLoop, if_pos rfl]) ?_
    refine (resume W hlt (.plus hp) hs.le ht hR hin k1 k2 hK fun _ _ => ih1 (.plus hp)).andThen ?_ fun e s2 hx => hx
    rintro - s2 ⟨n2, l1, l2, l3⟩
    refine plus_tail W U.decides hlt hp hbk hch hin l1 l2 hK l3 ?_
    intro k s3 n3 m1 m2 m3 m4 m5
    have ht' : (T n3).ttype = t := by rw [← ht]; exact rank_type W.eof hs.le m1.le (m2.trans hR.symm)
    rw [ht'] at m3
    exact plus_at W U.decides hlt hp hbk hch hin m1 m2 hK
      (fun e => ih2 k m3 m4 m5 e (.plus hp) s3 n3 cs hin m1 ht' m2 hK) b

theorem settles_star {rules : List RuleFn} {bail : Bool} {t : Int} {h : Nat} {b : Bool} {st back : Int} {ch : Choice} {exit bodyAlt : Int}
    {body : Code} (hs : Settles rules pr bail t h b (.star st back ch exit bodyAlt body)) :
    (∀ k, Answers pr ch t k → k ≠ exit → k ≠ 0 → k = bodyAlt) ∧
    (∀ k, Answers pr ch t k → k ≠ exit → k ≠ 0 → Settles rules pr bail t h true body) := by
  generalize hc : Code.star st back ch exit bodyAlt body = c at hs
  induction hs with
  | less _ ih => exact ih hc
  | star h1 h2 _ _ => cases hc; exact ⟨h1, h2⟩
  | _ => cases hc

theorem settles_plus {rules : List RuleFn} {bail : Bool} {t : Int} {h : Nat} {b : Bool} {st back : Int} {ch : Choice} {exit bodyAlt : Int}
    {body : Code} (hs : Settles rules pr bail t h b (.plus st back ch exit bodyAlt body)) :
    ∀ k, Answers pr ch t k → k ≠ exit → k ≠ 0 → k = bodyAlt → Settles rules pr bail t h true body := by
  generalize hc : Code.plus st back ch exit bodyAlt body = c at hs
  induction hs with
  | less _ ih => exact ih hc
  | plus _ h2 _ _ => cases hc; exact h2
  | _ => cases hc

theorem all_returns (U : Setup C T V ix Inv N K D pr Ch) (R : Nat) : All C T V ix Inv pr N K D R := by
  induction R using Nat.strongRecOn with
  | ind R hlt =>
    have W := U.world
    have code : ∀ r t h b c, Settles C.rules pr C.bail t h b c → Part C.rules r c → Goes C T V ix Inv N K D R r t h b c :=
      fun r t h b c hs hp => goes_all U hlt hs hp
    have settle : ∀ {s : GS I S} {n : Nat} {cs : List (Nat × Nat)}, Sane C V Inv N s n cs → ∀ r c, Part C.rules r c →
        ∃ b, Settles C.rules pr C.bail (T n).ttype D b c := fun hs r c hp => U.prompt.piece r c hp _ ⟨_, hs.le, rfl⟩
    refine ⟨code, ?_, ?_, ?_, ?_⟩
    · intro r c hp s n cs hin hs hR hK
      obtain ⟨b, hb⟩ := settle hs r c hp
      exact (code _ _ _ _ _ hb hp s n cs hin hs rfl hR hK).mono fun x s' hx => hx.mono (Nat.le_refl _) fun _ _ _ _ _ _ h => by simp at h
    · intro r st back ch exit bodyAlt body hp k s n cs hin hs hR hK hk
      obtain ⟨b, hb⟩ := settle hs _ _ hp
      obtain ⟨hsy, hbk, hch⟩ : Syncs C.env.atn st ∧ Syncs C.env.atn back ∧ Ch r ch := U.fits.piece _ _ hp
      obtain ⟨h1, h2⟩ := settles_star hb
      exact loop_at W U.decides hlt hp hbk hch hin hs hR hK (h1 k hk)
          (fun e1 e2 => code _ _ _ _ _ (h2 k hk e1 e2) (.star hp) s n cs hin hs rfl hR hK) false (by simp)
    · intro r st back ch exit bodyAlt body hp k s n cs hin hs hR hK hk e1 e2
      obtain ⟨b, hb⟩ := settle hs _ _ hp
      obtain ⟨hsy, hbk, hch⟩ : Syncs C.env.atn st ∧ Syncs C.env.atn back ∧ Ch r ch := U.fits.piece _ _ hp
      have h2 := settles_plus hb
      exact plus_at W U.decides hlt hp hbk hch hin hs hR hK
          (fun e => code _ _ _ _ _ (h2 k hk e1 e2 e) (.plus hp) s n cs hin hs rfl hR hK) false
    · intro r start sel prims entry back ch opSel ops hr k inv s n c cs hs h0 h1 hR hK hk
      obtain ⟨hbail, hloop⟩ := U.prompt.loop r start sel prims entry back ch opSel ops hr
      obtain ⟨hks, hgo⟩ := hloop _ ⟨n, hs.le, rfl⟩
      obtain ⟨-, -, -, -, hbk, hch, hos, hedge⟩ := U.fits.rule _ _ hr
      have hrl : r < C.rules.length := (List.getElem?_eq_some_iff.1 hr).1
      by_cases hx : k = 2 ∨ k = 0
      · refine .succ (b := fun _ => ret () s) (fun m => by rw [opLoop, if_pos hx]) ?_
        exact .now (x := .ok ()) (s' := s) (fun m => rfl) ⟨c, n, hs, Nat.le_of_eq hR, by simp⟩
      obtain rfl : k = 1 := by
        rcases hks k hk with h | h | h
        · exact absurd (.inr h) hx
        · exact h
        · exact absurd (.inl h) hx
      obtain ⟨hset, hblank⟩ := hgo hk
      obtain ⟨s1, e1, g1, g2⟩ := exitEvent_sane hs
      refine .succ (b := fun m => andThen (andThen (select C m opSel ops s1) fun o s => match o with
          | none => ret () s
          | some o => andThen (s.act (pushCtx r o.label (ids cs).head? inv start)) fun _ s =>
            andThen (precGuard C o (s.setState o.predState)) fun _ s => run C m o.code s) fun _ s =>
          andThen (head C m back ch s) fun k s => opLoop C m r start (ids cs).head? inv back ch opSel ops k s)
        (fun m => by rw [opLoop, if_neg hx, if_pos rfl, e1]; rfl) ?_
      refine Halts.andThen (Q := fun x s' => ∃ c', Ends' C T V ix Inv N R ((c', r) :: cs) true x s') ?_ ?_ ?_
      · have hh := select_halts W U.decides g1 .cons hos ops
        rw [g2, hR] at hh
        refine hh.andThen ?_ fun e s2 hx => ⟨c, hx⟩
        rintro o s2 ⟨n2, k1, k2, k3⟩
        have same : rank C T ix N s2.es.eh n2 = R → (T n2).ttype = (T n).ttype := fun he =>
          rank_type W.eof hs.le k1.le (he.trans hR.symm)
        cases o with
        | none =>
          refine .now (x := .ok ()) (s' := s2) (fun m => rfl) ⟨c, n2, k1, k2, fun _ => ?_⟩
          rcases Nat.lt_or_eq_of_le k2 with hl | he
          · exact hl
          · rw [same he] at k3
            exact absurd k3 hblank
        | some o =>
          obtain ⟨k3, k4⟩ := k3
          obtain ⟨c', s3, a1, a2, a3⟩ := pushCtx_sane W hbail k1 hrl h0 h1 o.label start
          have he := hedge o k4
          obtain ⟨x, p1, p2⟩ := precGuard_halts W (a2.setState (hasEdge_inAtn he)) (by simp) o (by exact he)
          have hr3 : rank C T ix N (s3.setState o.predState).es.eh n2 = rank C T ix N s2.es.eh n2 := by
            show rank C T ix N s3.es.eh n2 = _
            rw [a3]
          rw [hr3] at p2
          simp only [a1]
          refine Halts.andThen (r := fun _ => ret () s3) (Q := fun x s' => x = .ok () ∧ s' = s3) (.now (fun _ => rfl) ⟨rfl, rfl⟩) ?_
            fun e _ h => by cases h.1
          rintro - _ ⟨-, rfl⟩
          refine Halts.andThen (.now (fun _ => p1) p2) ?_ fun e s4 hx => ⟨c', Outcome.mono (Q := fun (_ : Unit) s' n' => true = true →
            rank C T ix N s'.es.eh n' < R) (x := .error e) hx k2 fun _ _ _ _ _ h => h⟩
          rintro - _ ⟨n4, j1, -, rfl, rfl⟩
          refine (resume (h := D) (b := true) (t := (T n).ttype) W hlt (.op hr k4) hs.le rfl hR .cons j1 (by rw [hr3]; exact k2)
            (by rw [List.length_cons]; omega) fun h1 h2 => ?_).mono fun x s' hx => ⟨c', hx⟩
          rw [hr3] at h1
          rw [same h1] at k3
          exact code _ _ _ _ _ (hset o k3) (.op hr k4)
      · rintro - s2 ⟨c', n2, k1, k2, k3⟩
        refine (head_halts W U.decides k1 .cons hbk hch).andThen ?_ fun e s3 hx => ⟨c', Outcome.mono (Q := fun (_ : Unit) s' n' => false = true →
            rank C T ix N s'.es.eh n' < R) (x := .error e) hx k2 fun _ _ _ _ _ h => h⟩
        rintro k2 s3 ⟨n3, j1, j2, j3⟩
        have hl : rank C T ix N s3.es.eh n3 < R := Nat.lt_of_le_of_lt j2 (k3 rfl)
        have hroom := room (L := cs.length + 1) (h := D) (D := D) (K := K) (by omega) hl
        refine ((hlt _ hl).ops r _ _ _ _ _ _ _ _ hr k2 inv s3 n3 c' cs j1 h0 h1 rfl (by omega) j3).mono ?_
        rintro x s' ⟨c2, hx⟩
        exact ⟨c2, hx.less hl⟩
      · rintro e s2 ⟨c', hx⟩
        exact ⟨c', hx⟩

/-- A call of a rule from outside, or anywhere. -/
theorem call_returns (U : Setup C T V ix Inv N K D pr Ch) {s : GS I S} {n : Nat} {cs : List (Nat × Nat)} (hs : Sane C V Inv N s n cs)
    {r : Nat} (h0 : cs = [] → s.es.p.state < 0)
    (h1 : ∀ r0, In r0 cs → CallsRule C.env.atn s.es.p.state r0 r) (hr : r < C.rules.length) (q : Int)
    (hK : cs.length + 1 + D + D * rank C T ix N s.es.eh n ≤ K) :
    Halts (fun m => runRule C m r q s) (Outcome C T V ix Inv N (rank C T ix N s.es.eh n) cs fun _ s' _ =>
      (∃ start sel alts, C.rules[r]? = some (.plain start sel alts)) → cs = [] → s'.es.p.state < 0) := by
  have W := U.world
  cases hfn : C.rules[r] with
  | recursive start sel prims entry back ch opSel ops =>
    have hfn' : C.rules[r]? = some (.recursive start sel prims entry back ch opSel ops) := by
      rw [List.getElem?_eq_getElem hr, hfn]
    obtain ⟨hst, -, hsel, hen, -, hch, -⟩ := U.fits.rule _ _ hfn'
    have hbail := (U.prompt.loop r _ _ _ _ _ _ _ _ hfn').1
    refine (rec_halts (q := q) (b := false) W U.decides hbail hs h0 h1 hfn' hst hsel hen hch ?_ (fun h => by cases h) ?_).mono
      fun x s' hx => hx.mono (Nat.le_refl _) fun _ _ _ _ _ _ ⟨_, _, _, hp⟩ => by rw [hfn'] at hp; cases hp
    · intro a c' s2 n2 k1 k2 _ k4
      have : D * rank C T ix N s2.es.eh n2 ≤ D * rank C T ix N s.es.eh n := Nat.mul_le_mul_left _ k4
      exact ((all_returns U _).piece r a.code (.prim hfn' k2) s2 n2 ((c', r) :: cs) .cons k1 rfl
        (by rw [List.length_cons]; omega)).mono fun x s' hx => hx.mono k4 fun _ _ _ _ _ _ h => by simp at h
    · intro k c' s2 n2 k1 k2 _ k4
      have : D * rank C T ix N s2.es.eh n2 ≤ D * rank C T ix N s.es.eh n := Nat.mul_le_mul_left _ k2
      refine ((all_returns U _).ops r _ _ _ _ _ _ _ _ hfn' k _ s2 n2 c' cs k1 h0 h1 rfl (by omega) k4).mono ?_
      rintro x s' ⟨c2, hx⟩
      exact ⟨c2, hx.mono k2 fun _ _ _ _ _ _ h => by simp at h⟩
  | plain start sel alts =>
    have hfn' : C.rules[r]? = some (.plain start sel alts) := by rw [List.getElem?_eq_getElem hr, hfn]
    obtain ⟨hst, hna, hsel⟩ := start_inAtn U hfn'
    have body : ∀ a ∈ alts, ∀ (s2 : GS I S) (n2 c' : Nat), Sane C V Inv N s2 n2 ((c', r) :: cs) →
        rank C T ix N s2.es.eh n2 ≤ rank C T ix N s.es.eh n →
        Halts (fun m => run C m a.code s2) (Outcome C T V ix Inv N (rank C T ix N s.es.eh n) ((c', r) :: cs)
          fun _ s' n' => false = true → rank C T ix N s'.es.eh n' < rank C T ix N s.es.eh n) := by
      intro a ha s2 n2 c' k1 k2
      have : D * rank C T ix N s2.es.eh n2 ≤ D * rank C T ix N s.es.eh n := Nat.mul_le_mul_left _ k2
      exact ((all_returns U _).piece r a.code (.alt hfn' ha) s2 n2 ((c', r) :: cs) .cons k1 rfl
        (by rw [List.length_cons]; omega)).mono fun x s' hx => hx.mono k2 fun _ _ _ _ _ _ h => by simp at h
    refine (rule_halts (q := q) (b := false) W hs h0 h1 hfn' hst ?_).mono
      fun x s' hx => hx.mono (Nat.le_refl _) fun _ _ _ _ _ hq _ => hq.1
    intro c s1 g1 g2
    cases sel with
    | none =>
      obtain ⟨a, more, rfl⟩ : ∃ a more, alts = a :: more := by
        cases alts with
        | nil => exact absurd rfl hna
        | cons a more => exact ⟨a, more, rfl⟩
      refine .now (x := .ok (some a)) (s' := s1) (fun m => rfl) ⟨n, g1, by rw [g2]; exact Nat.le_refl _, ?_⟩
      intro c' s2 k1 k2
      exact body a (by simp) s2 n c' k1 (by rw [k2, g2]; exact Nat.le_refl _)
    | some x =>
      obtain ⟨st, ch⟩ := x
      obtain ⟨hsy, hch⟩ := hsel st ch rfl
      have hh := head_halts W U.decides g1 .cons hsy hch
      rw [g2] at hh
      refine Halts.andThen (f := fun _ k s => ret (pick alts k) s) hh ?_ fun e s1 hx => hx
      rintro k s2 ⟨n2, k1, k2, -⟩
      refine .now (x := .ok (pick alts k)) (s' := s2) (fun m => rfl) ⟨n2, k1, k2, ?_⟩
      cases hk : pick alts k with
      | none => intro h; simp at h
      | some a =>
        intro c' s3 m1 m2
        exact body a (alt_mem hk) s3 n2 c' m1 (by rw [m2]; exact k2)

end Antlr.Gen

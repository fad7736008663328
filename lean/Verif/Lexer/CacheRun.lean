import Verif.Lexer.CacheMatch

/-!
# Whole runs with two differently warmed caches

Executors are compared without the offsets of custom actions (`noOffsets`).
-/

namespace Antlr.LexCache
open Antlr Lexer ConfigSet LexSpec Antlr.LexProps

set_option linter.unusedSectionVars false

/-- An action without the offset recorded in it. -/
def noOffset : LexerAction → LexerAction
  | .indexedCustom _ a => noOffset a
  | a => a

/-- An executor without offsets. -/
def noOffsets (e : Option (List LexerAction)) : Option (List LexerAction) := e.map (·.map noOffset)

/-- An executor not looked at. -/
def nothing (_ : Option (List LexerAction)) : Option (List LexerAction) := none

theorem noOffset_idem (a : LexerAction) : noOffset (noOffset a) = noOffset a := by
  induction a with
  | indexedCustom o a ih => exact ih
  | _ => rfl

theorem noOffset_fix (o : Int) (a : LexerAction) : noOffset (fixAction o a) = noOffset a := by
  cases a <;> rfl

theorem blur_noOffsets : Blur noOffsets where
  idem e := by
    cases e with
    | none => rfl
    | some l => simp [noOffsets, noOffset_idem]
  fix o e := by
    cases e with
    | none => rfl
    | some l => simp [noOffsets, fixOffset, noOffset_fix]
  app e e' a h := by
    cases e with
    | none => cases e' with
      | none => rfl
      | some l => simp [noOffsets] at h
    | some l => cases e' with
      | none => simp [noOffsets] at h
      | some l' =>
        simp only [noOffsets, Option.map_some, Option.some.injEq] at h
        simp [noOffsets, newCopyAppend, h]

theorem blur_nothing : Blur nothing := ⟨fun _ => rfl, fun _ _ => rfl, fun _ _ _ _ => rfl⟩

variable {D : Type} [InputData D]

/-- A custom action that does not look at the input position. -/
def PositionBlind (action : Int → Int → Lex D → Lex D) : Prop :=
  ∀ r a L i, action r a (L.seek i) = (action r a L).seek i

theorem executeAction_seek {action : Int → Int → Lex D → Lex D} (hb : PositionBlind action) (a : LexerAction)
    (L : Lex D) (i : Int) : executeAction action a (L.seek i) = (executeAction action a L).seek i := by
  induction a with
  | custom r a => exact hb r a L i
  | indexedCustom o a ih => exact ih
  | popMode =>
    simp only [executeAction, Lex.popMode, Lex.seek]
    split <;> rfl
  | _ => rfl

theorem executeAction_noOffset (action : Int → Int → Lex D → Lex D) (a : LexerAction) (L : Lex D) :
    executeAction action (noOffset a) L = executeAction action a L := by
  induction a with
  | indexedCustom o a ih => exact ih
  | _ => rfl

/-- All actions, one after the other. -/
def runAll (action : Int → Int → Lex D → Lex D) : List LexerAction → Lex D → Lex D
  | [], L => L
  | a :: as, L => runAll action as (executeAction action a L)

theorem runAll_seek {action : Int → Int → Lex D → Lex D} (hb : PositionBlind action) (as : List LexerAction) :
    ∀ (L : Lex D) (i : Int), runAll action as (L.seek i) = (runAll action as L).seek i := by
  induction as with
  | nil => intros; rfl
  | cons a as ih => intro L i; simp only [runAll, executeAction_seek hb, ih]

theorem performAll_blind {action : Int → Int → Lex D → Lex D} (hb : PositionBlind action) (start stop : Int)
    (as : List LexerAction) : ∀ L : Lex D, performAll action start stop as L = (runAll action as L).seek stop := by
  induction as with
  | nil => intro L; rfl
  | cons a as ih =>
    intro L
    simp only [performAll, ih, runAll, executeAction_seek hb, runAll_seek hb]
    rfl

theorem runAll_noOffset (action : Int → Int → Lex D → Lex D) (as : List LexerAction) :
    ∀ L : Lex D, runAll action (as.map noOffset) L = runAll action as L := by
  induction as with
  | nil => intro L; rfl
  | cons a as ih => intro L; simp only [List.map_cons, runAll, executeAction_noOffset, ih]

/-- Actions that do not look at the position do the same with other offsets. -/
theorem runExec_blind {action : Int → Int → Lex D → Lex D} (ht : ∀ r a L, Untouched L (action r a L))
    (hb : PositionBlind action) {start : Int} {e e' : Option (List LexerAction)}
    (h : noOffsets e = noOffsets e') (L : Lex D) : runExec action start e L = runExec action start e' L := by
  cases e with
  | none => cases e' with
    | none => rfl
    | some l => simp [noOffsets] at h
  | some l => cases e' with
    | none => simp [noOffsets] at h
    | some l' =>
      simp only [noOffsets, Option.map_some, Option.some.injEq] at h
      simp only [runExec, executeActions_spec ht, performAll_blind hb]
      rw [← runAll_noOffset, h, runAll_noOffset]

theorem runExec_cur {action : Int → Int → Lex D → Lex D} (ht : ∀ r a L, Untouched L (action r a L))
    (start : Int) (e : Option (List LexerAction)) (L : Lex D) : (runExec action start e L).cur = L.cur := by
  cases e with
  | none => rfl
  | some as =>
    simp only [runExec, executeActions_spec ht]
    rw [(performAll_untouched ht start L.cur.input.index as L).cur]; rfl

theorem answer_cur {action : Int → Int → Lex D → Lex D} (ht : ∀ r a L, Untouched L (action r a L))
    (start : Int) (x : PStop D) (e e' : Option (List LexerAction)) (L : Lex D) :
    (answer action start x e L).1 = (answer action start x e' L).1 ∧
    (answer action start x e L).2.cur = (answer action start x e' L).2.cur ∧
    (answer action start x e L).2.cur.input.data = x.cur.input.data := by
  simp only [answer]
  split
  · simp only [runExec_cur ht, true_and]; rfl
  · split <;> simp

theorem answer_blind {action : Int → Int → Lex D → Lex D} (ht : ∀ r a L, Untouched L (action r a L))
    (hb : PositionBlind action) {start : Int} {x : PStop D} {e e' : Option (List LexerAction)}
    (h : x.prev.isSome → noOffsets e = noOffsets e') (L : Lex D) :
    answer action start x e L = answer action start x e' L := by
  simp only [answer]
  split
  · rename_i b hx
    rw [runExec_blind ht hb (h (by simp [hx]))]
  · rfl

/-! ## Two runs side by side -/

/-- Two lists of DFAs of the same grammar, both filled by earlier matches, with room for `n` states. -/
structure Pair (q : Option (List LexerAction) → Option (List LexerAction)) (atn : ATN)
    (hash : List Config → Nat) (fc n : Nat) (d d' : List DFA) : Prop where
  left : AllWarm q atn hash fc d
  right : AllWarm q atn hash fc d'
  len : d.length = d'.length
  roomL : Room n d
  roomR : Room n d'

theorem Room.le {n m : Nat} {d : List DFA} (h : Room n d) (hm : m ≤ n) : Room m d := by
  intro x hx; have := h x hx; omega

theorem Pair.le {q atn hash fc n m} {d d' : List DFA} (h : Pair q atn hash fc n d d') (hm : m ≤ n) :
    Pair q atn hash fc m d d' :=
  ⟨h.left, h.right, h.len, h.roomL.le hm, h.roomR.le hm⟩

/-- Both runs fail or both give the same lexer state. -/
def Same (env : Env D) (fc n : Nat) {α : Type} (o o' : Option (α × List DFA)) (P : α → Prop) : Prop :=
  (o = none ∧ o' = none) ∨ ∃ L d d', o = some (L, d) ∧ o' = some (L, d') ∧
    Pair noOffsets env.atn env.hash fc n d d' ∧ P L

section
variable {env : Env D} {fc fe : Nat} (ht : Tame env) (hb : PositionBlind env.action)
  (hh : ∀ l l', env.hash l = env.hash l' → abs noOffsets l = abs noOffsets l')
include ht hb hh

theorem matchToken_same {n : Nat} {L : Lex D} {d d' : List DFA}
    (h : Pair noOffsets env.atn env.hash fc (n + (fe + 1)) d d') (hs : Sane L.cur.input.data) :
    (matchToken env fc fe L d = none ∧ matchToken env fc fe L d' = none) ∨
    ∃ r L1 d1 d1', matchToken env fc fe L d = some (r, L1, d1) ∧ matchToken env fc fe L d' = some (r, L1, d1') ∧
      Pair noOffsets env.atn env.hash fc n d1 d1' ∧ Sane L1.cur.input.data := by
  by_cases hm : L.mode < d.length
  · have h1 := match_spec blur_noOffsets hh h.left hm hs h.roomL
    have h2 := match_spec blur_noOffsets hh h.right (by rw [← h.len]; exact hm) hs h.roomR
    cases hp : pmatch noOffsets env fc fe L with
    | none => rw [hp] at h1 h2; exact .inl ⟨h1, h2⟩
    | some o =>
      rw [hp] at h1 h2
      cases o with
      | none => exact .inr ⟨_, _, _, _, h1, h2, h.le (by omega), hs⟩
      | some x =>
        obtain ⟨e, d1, a1, a2, a3, a4, a5, a6⟩ := h1
        obtain ⟨e', d1', b1, b2, b3, b4, b5, b6⟩ := h2
        have he : x.prev.isSome → noOffsets e = noOffsets e' := fun hx => (a1 hx).trans (b1 hx).symm
        rw [← answer_blind ht.action hb he] at b2
        refine .inr ⟨_, _, _, _, a2, b2, ⟨a3, b3, by rw [a4, b4, h.len], a5, b5⟩, ?_⟩
        rw [(answer_cur ht.action _ x e e L).2.2, a6]
        exact hs
  · have e1 : d[L.mode]? = none := by simp; omega
    have e2 : d'[L.mode]? = none := by simp; have := h.len; omega
    right
    exact ⟨.illegalMode, L, d, d', by simp [matchToken, e1], by simp [matchToken, e2], h.le (by omega), hs⟩

theorem matchStep_same {n : Nat} {L : Lex D} {d d' : List DFA}
    (h : Pair noOffsets env.atn env.hash fc (n + (fe + 1)) d d') (hs : Sane L.cur.input.data) :
    Same env fc n (matchStep env fc fe L d) (matchStep env fc fe L d') fun L => Sane L.cur.input.data := by
  rcases matchToken_same ht hb hh (L := { L with ttype := TOKEN_INVALID_TYPE }) h hs with
    ⟨e1, e2⟩ | ⟨r, L1, d1, d1', e1, e2, e3, e4⟩
  · left; simp [matchStep, e1, e2]
  · simp only [matchStep, e1, e2, Option.bind_some]
    have key : ∀ (o : Option (Int × Lex D × Bool)), (∀ z, o = some z → Sane z.2.1.cur.input.data) →
        Same env fc n
        (o.bind fun (q : Int × Lex D × Bool) =>
          (q.2.1.cur.input.la 1).map fun la =>
            let L1 : Lex D := { q.2.1 with hitEof := q.2.1.hitEof || decide (la = EOF) }
            let L2 : Lex D := { L1 with ttype := if L1.ttype = TOKEN_INVALID_TYPE then q.1 else L1.ttype }
            ({ L2 with pieces := L2.pieces ++
                [Piece.mk L.cur.input.index L2.cur.input.index L2.ttype q.2.2] }, d1))
        (o.bind fun (q : Int × Lex D × Bool) =>
          (q.2.1.cur.input.la 1).map fun la =>
            let L1 : Lex D := { q.2.1 with hitEof := q.2.1.hitEof || decide (la = EOF) }
            let L2 : Lex D := { L1 with ttype := if L1.ttype = TOKEN_INVALID_TYPE then q.1 else L1.ttype }
            ({ L2 with pieces := L2.pieces ++
                [Piece.mk L.cur.input.index L2.cur.input.index L2.ttype q.2.2] }, d1'))
        fun L => Sane L.cur.input.data := by
      intro o ho
      cases o with
      | none => exact .inl ⟨rfl, rfl⟩
      | some z =>
        simp only [Option.bind_some]
        cases hla : z.2.1.cur.input.la 1 with
        | none => exact .inl ⟨rfl, rfl⟩
        | some la => exact .inr ⟨_, d1, d1', rfl, rfl, e3, ho z rfl⟩
    apply key
    intro z hz
    have err : ∀ (z : Int × Lex D × Bool), ((L1.cur.input.getText L1.startIndex L1.cur.input.index).bind fun text =>
         L1.cur.recover.map fun c =>
           (LEXER_SKIP, { L1 with
              cur := c
              reports := L1.reports ++ [Report.mk L1.startLine L1.startCol text] }, true)) = some z →
        Sane z.2.1.cur.input.data := by
      intro z hz
      obtain ⟨text, _, hz⟩ := Option.bind_eq_some_iff.mp hz
      simp only [Option.map_eq_some_iff] at hz
      obtain ⟨c, hc, hz⟩ := hz
      subst hz
      simp only [Cursor.recover] at hc
      obtain ⟨ch, _, hc⟩ := Option.bind_eq_some_iff.mp hc
      split at hc
      · injection hc with hc; subst hc; exact e4
      · simp only [consume_data hc]; exact e4
    cases r with
    | ok tt => simp only [Option.some.injEq] at hz; subst hz; exact e4
    | noAlt i => exact err z hz
    | illegalMode => exact err z hz

theorem loops_same (fuel : Nat) : ∀ {n : Nat} {L : Lex D} {d d' : List DFA},
    Pair noOffsets env.atn env.hash fc (n + fuel * (fe + 1)) d d' → Sane L.cur.input.data →
    Same env fc n (outerLoop env fc fe fuel L d) (outerLoop env fc fe fuel L d') (fun L => Sane L.cur.input.data) ∧
    Same env fc n (innerLoop env fc fe fuel L d) (innerLoop env fc fe fuel L d') (fun L => Sane L.cur.input.data) := by
  induction fuel with
  | zero => intro n L d d' h hs; exact ⟨.inl ⟨rfl, rfl⟩, .inl ⟨rfl, rfl⟩⟩
  | succ fuel ih =>
    intro n L d d' h hs
    have hexp : (fuel + 1) * (fe + 1) = fuel * (fe + 1) + (fe + 1) := by rw [Nat.add_mul]; omega
    constructor
    · simp only [outerLoop]
      split
      · exact .inr ⟨_, d, d', rfl, rfl, h.le (by omega), hs⟩
      · exact (ih (h.le (by omega)) (L := beginToken L) hs).2
    · simp only [innerLoop]
      rcases matchStep_same ht hb hh (fe := fe) (n := n + fuel * (fe + 1)) (h.le (by omega)) hs with ⟨e1, e2⟩ | ⟨L1, d1, d1', e1, e2, e3, e4⟩
      · left; simp [e1, e2]
      · simp only [e1, e2, Option.bind_some]
        split
        · exact (ih e3 e4).1
        · split
          · exact (ih e3 e4).2
          · split
            · cases hem : emit env L1 with
              | none => exact .inl ⟨rfl, rfl⟩
              | some L2 =>
                refine .inr ⟨L2, d1, d1', rfl, rfl, e3.le (by omega), ?_⟩
                simp only [emit, Option.map_eq_some_iff] at hem
                obtain ⟨text, _, hem⟩ := hem
                subst hem
                simp only [(ht.before L1).cur]
                exact e4
            · exact (ih e3 e4).1

theorem nextToken_same {fn n : Nat} {L : Lex D} {d d' : List DFA}
    (h : Pair noOffsets env.atn env.hash fc (n + fn * (fe + 1)) d d') (hs : Sane L.cur.input.data) :
    (nextToken env fc fe fn L d = none ∧ nextToken env fc fe fn L d' = none) ∨
    ∃ t L1 d1 d1', nextToken env fc fe fn L d = some (t, L1, d1) ∧
      nextToken env fc fe fn L d' = some (t, L1, d1') ∧
      Pair noOffsets env.atn env.hash fc n d1 d1' ∧ Sane L1.cur.input.data := by
  simp only [nextToken]
  rcases (loops_same ht hb hh fn h hs).1 with ⟨e1, e2⟩ | ⟨L1, d1, d1', e1, e2, e3, e4⟩
  · left; simp [e1, e2]
  · simp only [e1, e2, Option.bind_some]
    cases L1.token with
    | none => exact .inl ⟨rfl, rfl⟩
    | some t => exact .inr ⟨t, _, d1, d1', rfl, rfl, e3, e4⟩

theorem nextTokens_same {fn : Nat} (k : Nat) : ∀ {n : Nat} {L : Lex D} {d d' : List DFA},
    Pair noOffsets env.atn env.hash fc (n + k * (fn * (fe + 1))) d d' → Sane L.cur.input.data →
    (nextTokens env fc fe fn k L d).map (fun r => (r.1, r.2.1)) =
      (nextTokens env fc fe fn k L d').map (fun r => (r.1, r.2.1)) := by
  induction k with
  | zero => intros; rfl
  | succ k ih =>
    intro n L d d' h hs
    have hexp : (k + 1) * (fn * (fe + 1)) = k * (fn * (fe + 1)) + fn * (fe + 1) := by rw [Nat.add_mul]; omega
    simp only [nextTokens]
    rcases nextToken_same ht hb hh (fe := fe) (fn := fn) (n := n + k * (fn * (fe + 1))) (h.le (by omega)) hs with
      ⟨e1, e2⟩ | ⟨t, L1, d1, d1', e1, e2, e3, e4⟩
    · simp [e1, e2]
    · simp only [e1, e2, Option.bind_some]
      have := ih e3 e4
      cases h1 : nextTokens env fc fe fn k L1 d1 with
      | none =>
        cases h2 : nextTokens env fc fe fn k L1 d1' with
        | none => rfl
        | some r => rw [h1, h2] at this; simp at this
      | some r =>
        cases h2 : nextTokens env fc fe fn k L1 d1' with
        | none => rw [h1, h2] at this; simp at this
        | some r' =>
          rw [h1, h2] at this
          simp only [Option.map_some, Option.some.injEq, Prod.mk.injEq] at this ⊢
          obtain ⟨f1, f2⟩ := this
          exact ⟨by rw [f1], f2⟩

end

end Antlr.LexCache

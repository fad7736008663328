import Verif.Parser.TreeLemmas

/-! # First and last token of the nodes of a tree -/

namespace Antlr.ParserSpec
open Antlr

/-- The consumed leaves of a tree: those which are not made up. -/
def consumedLeaves (ns : List Node) : List Tok :=
  ((leavesL ns).map (·.1)).filter (·.index ≠ -1)

mutual
/-- Every rule node starts with its first consumed token and, unless that is EOF, stops with its
last. -/
def Spanned : Node → Prop
  | .leaf _ _ => True
  | .rule _ _ _ start stop kids =>
    (∀ t, (consumedLeaves kids).head? = some t → start = t) ∧
    (∀ t, (consumedLeaves kids).getLast? = some t → t.ttype ≠ TOKEN_EOF → stop = t) ∧
    SpannedL kids
def SpannedL : List Node → Prop
  | [] => True
  | n :: ns => Spanned n ∧ SpannedL ns
end

end Antlr.ParserSpec

namespace Antlr.ParserLemmas
open Antlr ParserSpec

variable (T : Nat → Tok)

/-- Whether EOF has been matched. -/
def eofAfter : List Prim → Nat → Bool → Bool
  | [], _, e => e
  | .matchTok :: xs, n, e =>
    eofAfter xs (if (T n).ttype = TOKEN_EOF then n else n + 1) (e || decide ((T n).ttype = TOKEN_EOF))
  | .consume _ :: xs, n, e => eofAfter xs (if (T n).ttype = TOKEN_EOF then n else n + 1) e
  | _ :: xs, n, e => eofAfter xs n e

theorem eofAfter_append (a b : List Prim) (n : Nat) (e : Bool) :
    eofAfter T (a ++ b) n e = eofAfter T b (moved T a n) (eofAfter T a n e) := by
  induction a generalizing n e with
  | nil => rfl
  | cons x xs ih => cases x <;> simp [eofAfter, moved, ih]

theorem prims_eof (xs : List Prim) (s : St) :
    (primsDen T xs s).2.eof = eofAfter T xs s.pos s.eof := by
  induction xs generalizing s with
  | nil => rfl
  | cons x xs ih =>
    rw [primsDen]
    simp only [ih]
    cases x <;> simp only [primDen, eofAfter, advance]
    all_goals (repeat' split) <;> simp_all

mutual
theorem act_eof : ∀ (a : Act) (s : St), (actDen T a s).2.eof = eofAfter T (flatAct a) s.pos s.eof
  | .prim x, s => by
    have := prims_eof T [x] s
    simpa [primsDen, actDen, flatAct] using this
  | .rule idx st pre label body, s => by
    simp only [actDen, flatAct, eofAfter_append, acts_eof body, prims_eof,
      (prims_leaves T pre { s with state := st }).2]
  | .noAlt idx st pre, s => by simp only [actDen, flatAct, prims_eof]
  | .recRule idx st prec pre label primary tail, s => by
    simp only [actDen, flatAct, eofAfter_append, acts_eof primary, iters_eof tail, prims_eof,
      (prims_leaves T pre { s with state := st }).2,
      (acts_leaves T primary (primsDen T pre { s with state := st }).2).2, moved_append]
theorem acts_eof : ∀ (b : Acts) (s : St),
    (actsDen T b s).2.eof = eofAfter T (flatActs b) s.pos s.eof
  | .nil, s => by simp [actsDen, flatActs, eofAfter]
  | .cons a rest, s => by
    simp only [actsDen, flatActs, eofAfter_append, act_eof a, acts_eof rest, (act_leaves T a s).2]
theorem iters_eof : ∀ (t : Iters) (idx : Nat) (st : Int) (start : Tok) (label : Option Nat)
    (kids : List Node) (s : St),
    (itersDen T t idx st start label kids s).2.2.eof = eofAfter T (flatIters t) s.pos s.eof
  | .done, _, _, _, _, _, s => by simp [itersDen, flatIters, eofAfter]
  | .abort pre, _, _, _, _, _, s => by simp only [itersDen, flatIters, prims_eof]
  | .iter pre label' body rest, idx, st, start, label, kids, s => by
    simp only [itersDen, flatIters, eofAfter_append, acts_eof body, iters_eof rest, prims_eof,
      (prims_leaves T pre s).2, (acts_leaves T body (primsDen T pre s).2).2, moved_append]
end

/-- The consumed tokens of a trace. -/
def got (xs : List Prim) (n : Nat) : List Tok := ((trace T xs n).map (·.1)).filter (·.index ≠ -1)

theorem consumedLeaves_eq {ns : List Node} {xs : List Prim} {n : Nat}
    (h : leavesL ns = trace T xs n) : consumedLeaves ns = got T xs n := by
  rw [consumedLeaves, got, h]

section
variable (hidx : ∀ n, (T n).index ≠ -1) (heof : ∀ n, (T n).ttype = TOKEN_EOF → T (n + 1) = T n)
include hidx

theorem got_matchTok (xs : List Prim) (n : Nat) : got T (.matchTok :: xs) n =
    T n :: got T xs (if (T n).ttype = TOKEN_EOF then n else n + 1) := by
  rw [got, trace, List.map_cons, List.filter_cons, if_pos (by simpa using hidx n), got]

theorem got_consume (r : Bool) (xs : List Prim) (n : Nat) : got T (.consume r :: xs) n =
    T n :: got T xs (if (T n).ttype = TOKEN_EOF then n else n + 1) := by
  rw [got, trace, List.map_cons, List.filter_cons, if_pos (by simpa using hidx n), got]

omit hidx in
theorem got_conjure (t : Tok) (xs : List Prim) (n : Nat) :
    got T (.conjure t :: xs) n = got T xs n := by
  rw [got, trace]
  split
  · rename_i h
    rw [List.map_cons, List.filter_cons, if_neg (by simpa using h), got]
  · rfl

theorem got_head (xs : List Prim) (n : Nat) (t : Tok) (h : (got T xs n).head? = some t) :
    T n = t := by
  induction xs with
  | nil => simp [got, trace] at h
  | cons x xs ih =>
    cases x with
    | matchTok => rw [got_matchTok T hidx] at h; simpa using h
    | consume r => rw [got_consume T hidx] at h; simpa using h
    | conjure t => rw [got_conjure] at h; exact ih h
    | setState => exact ih h
    | markStop => exact ih h

theorem got_nil (xs : List Prim) (n : Nat) (h : got T xs n = []) :
    moved T xs n = n ∧ ∀ e, eofAfter T xs n e = e := by
  induction xs with
  | nil => exact ⟨rfl, fun _ => rfl⟩
  | cons x xs ih =>
    cases x with
    | matchTok => rw [got_matchTok T hidx] at h; simp at h
    | consume r => rw [got_consume T hidx] at h; simp at h
    | conjure t => rw [got_conjure] at h; exact ih h
    | setState => exact ih h
    | markStop => exact ih h

theorem got_eof (xs : List Prim) (n : Nat) (hn : (T n).ttype = TOKEN_EOF) :
    ∀ t ∈ got T xs n, t.ttype = TOKEN_EOF := by
  induction xs with
  | nil => simp [got, trace]
  | cons x xs ih =>
    cases x with
    | matchTok =>
      rw [got_matchTok T hidx, if_pos hn]
      intro t ht
      rcases List.mem_cons.1 ht with rfl | ht
      exacts [hn, ih t ht]
    | consume r =>
      rw [got_consume T hidx, if_pos hn]
      intro t ht
      rcases List.mem_cons.1 ht with rfl | ht
      exacts [hn, ih t ht]
    | conjure t => rw [got_conjure]; exact ih
    | setState => exact ih
    | markStop => exact ih

theorem got_last (xs : List Prim) (n : Nat) (e : Bool) (he : e = true → (T n).ttype = TOKEN_EOF)
    (t : Tok) (h : (got T xs n).getLast? = some t) (ht : t.ttype ≠ TOKEN_EOF) :
    eofAfter T xs n e = false ∧ moved T xs n ≠ 0 ∧ T (moved T xs n - 1) = t := by
  induction xs generalizing n e with
  | nil => simp [got, trace] at h
  | cons x xs ih =>
    have step : ∀ e', (e' = true → e = true ∨ (T n).ttype = TOKEN_EOF) →
        (T n :: got T xs (if (T n).ttype = TOKEN_EOF then n else n + 1)).getLast? = some t →
        eofAfter T xs (if (T n).ttype = TOKEN_EOF then n else n + 1) e' = false ∧
        moved T xs (if (T n).ttype = TOKEN_EOF then n else n + 1) ≠ 0 ∧
        T (moved T xs (if (T n).ttype = TOKEN_EOF then n else n + 1) - 1) = t := by
      intro e' he' hg
      by_cases hn : (T n).ttype = TOKEN_EOF
      · exfalso
        simp only [hn, if_true] at hg
        have hm := List.mem_of_getLast? hg
        rcases List.mem_cons.1 hm with rfl | hm
        · exact ht hn
        · exact ht (got_eof T hidx xs n hn t hm)
      · have hef : e' = false := by
          cases e' with
          | false => rfl
          | true => rcases he' rfl with h | h
                    · exact absurd (he h) hn
                    · exact absurd h hn
        subst hef
        simp only [hn, if_false] at hg ⊢
        by_cases hnil : got T xs (n + 1) = []
        · rw [hnil] at hg
          obtain ⟨h1, h2⟩ := got_nil T hidx xs (n + 1) hnil
          rw [h1, h2]
          simp only [List.getLast?_singleton, Option.some.injEq] at hg
          exact ⟨rfl, by omega, by simpa using hg⟩
        · rw [List.getLast?_cons] at hg
          cases hl : (got T xs (n + 1)).getLast? with
          | none => exact absurd (by simpa using hl) hnil
          | some q =>
            rw [hl] at hg
            simp only [Option.getD_some, Option.some.injEq] at hg
            subst hg
            exact ih (n + 1) false (by simp) hl
    cases x with
    | matchTok =>
      rw [got_matchTok T hidx] at h
      rw [moved, eofAfter]
      exact step _ (by simp) h
    | consume r =>
      rw [got_consume T hidx] at h
      rw [moved, eofAfter]
      exact step _ (fun h => .inl h) h
    | conjure t => rw [got_conjure] at h; exact ih n e he h
    | setState => exact ih n e he h
    | markStop => exact ih n e he h

theorem span_stop (xs : List Prim) (n : Nat) (e : Bool) (he : e = true → (T n).ttype = TOKEN_EOF)
    (t : Tok) (h : (got T xs n).getLast? = some t) (ht : t.ttype ≠ TOKEN_EOF) (s : St)
    (hp : s.pos = moved T xs n) (hs : s.eof = eofAfter T xs n e) :
    stopTok T s = t ∧ prevTok T s.pos = t := by
  obtain ⟨h1, h2, h3⟩ := got_last T hidx xs n e he t h ht
  rw [stopTok, hs, h1, prevTok, hp]
  simp [h2, h3]

omit hidx in
include heof in
theorem eofAfter_inv (xs : List Prim) (n : Nat) (e : Bool)
    (he : e = true → (T n).ttype = TOKEN_EOF) (h : eofAfter T xs n e = true) :
    (T (moved T xs n)).ttype = TOKEN_EOF := by
  induction xs generalizing n e with
  | nil => exact he h
  | cons x xs ih =>
    cases x with
    | matchTok =>
      rw [moved]
      refine ih _ _ ?_ h
      intro h1
      by_cases hn : (T n).ttype = TOKEN_EOF
      · simpa [hn] using hn
      · simp only [hn, decide_false, Bool.or_false] at h1
        exact absurd (he h1) hn
    | consume r =>
      rw [moved]
      refine ih _ _ ?_ h
      intro h1
      have hn := he h1
      simpa [hn] using hn
    | conjure t => exact ih n e he h
    | setState => exact ih n e he h
    | markStop => exact ih n e he h

theorem spannedL_append (a b : List Node) (h1 : SpannedL a) (h2 : SpannedL b) :
    SpannedL (a ++ b) := by
  induction a with
  | nil => exact h2
  | cons n ns ih =>
    rw [SpannedL] at h1
    rw [List.cons_append, SpannedL]
    exact ⟨h1.1, ih h1.2⟩

theorem prims_spanned (xs : List Prim) (s : St) : SpannedL (primsDen T xs s).1 := by
  induction xs generalizing s with
  | nil => simp [primsDen, SpannedL]
  | cons x xs ih =>
    rw [primsDen]
    refine spannedL_append T hidx _ _ ?_ (ih _)
    cases x <;> simp only [primDen]
    case conjure => split <;> simp [SpannedL, Spanned]
    all_goals simp [SpannedL, Spanned]

include heof in
mutual
theorem act_spanned : ∀ (a : Act) (s : St), (s.eof = true → (T s.pos).ttype = TOKEN_EOF) →
    SpannedL (actDen T a s).1
  | .prim x, s, _ => by
    have := prims_spanned T hidx [x] s
    simpa [primsDen, actDen] using this
  | .rule idx st pre label body, s, he => by
    have hb := acts_spanned body (primsDen T pre { s with state := st }).2 (by
      rw [prims_eof, (prims_leaves T _ _).2]; exact eofAfter_inv T heof pre s.pos s.eof he)
    simp only [actDen]
    rw [SpannedL, Spanned]
    have hl := (act_leaves T (.rule idx st pre label body) s)
    simp only [actDen, leavesL, leaves, List.append_nil] at hl
    have hee := act_eof T (.rule idx st pre label body) s
    simp only [actDen] at hee
    refine ⟨⟨?_, ?_, spannedL_append T hidx _ _ (prims_spanned T hidx _ _) hb⟩, by simp [SpannedL]⟩
    · intro t ht
      rw [consumedLeaves_eq T hl.1] at ht
      exact got_head T hidx _ _ t ht
    · intro t ht hne
      rw [consumedLeaves_eq T hl.1] at ht
      exact (span_stop T hidx _ _ _ he t ht hne _ hl.2 hee).1
  | .noAlt idx st pre, s, he => by
    simp only [actDen]
    rw [SpannedL, Spanned]
    have hl := (act_leaves T (.noAlt idx st pre) s)
    simp only [actDen, leavesL, leaves, List.append_nil] at hl
    have hee := act_eof T (.noAlt idx st pre) s
    simp only [actDen] at hee
    refine ⟨⟨?_, ?_, prims_spanned T hidx _ _⟩, by simp [SpannedL]⟩
    · intro t ht
      rw [consumedLeaves_eq T hl.1] at ht
      exact got_head T hidx _ _ t ht
    · intro t ht hne
      rw [consumedLeaves_eq T hl.1] at ht
      exact (span_stop T hidx _ _ _ he t ht hne _ hl.2 hee).1
  | .recRule idx st prec pre label primary tail, s, he => by
    have hee := act_eof T (.recRule idx st prec pre label primary tail) s
    simp only [actDen] at hee
    have hb := acts_spanned primary (primsDen T pre { s with state := st }).2 (by
      rw [prims_eof, (prims_leaves T _ _).2]; exact eofAfter_inv T heof pre s.pos s.eof he)
    have hl1 := prims_leaves T pre { s with state := st }
    have hl2 := acts_leaves T primary (primsDen T pre { s with state := st }).2
    have hi := iters_spanned tail idx st label
      ((primsDen T pre { s with state := st }).1 ++
        (actsDen T primary (primsDen T pre { s with state := st }).2).1)
      (actsDen T primary (primsDen T pre { s with state := st }).2).2
      s.pos s.eof (pre ++ flatActs primary) he
      (by rw [leavesL_append, hl1.1, hl2.1, hl1.2, trace_append])
      (by rw [hl2.2, hl1.2, moved_append])
      (by rw [acts_eof, prims_eof, hl1.2, eofAfter_append])
      (spannedL_append T hidx _ _ (prims_spanned T hidx _ _) hb)
    simp only [actDen]
    rw [SpannedL, Spanned]
    refine ⟨⟨?_, ?_, hi⟩, by simp [SpannedL]⟩
    · have hl := (act_leaves T (.recRule idx st prec pre label primary tail) s)
      simp only [actDen, leavesL, leaves, List.append_nil] at hl
      intro t ht
      rw [consumedLeaves_eq T hl.1] at ht
      exact got_head T hidx _ _ t ht
    · have hl := (act_leaves T (.recRule idx st prec pre label primary tail) s)
      simp only [actDen, leavesL, leaves, List.append_nil] at hl
      intro t ht hne
      rw [consumedLeaves_eq T hl.1] at ht
      exact (span_stop T hidx _ _ _ he t ht hne _ hl.2 hee).2
theorem acts_spanned : ∀ (b : Acts) (s : St), (s.eof = true → (T s.pos).ttype = TOKEN_EOF) →
    SpannedL (actsDen T b s).1
  | .nil, s, _ => by simp [actsDen, SpannedL]
  | .cons a rest, s, he => by
    rw [actsDen]
    refine spannedL_append T hidx _ _ (act_spanned a s he) (acts_spanned rest _ ?_)
    rw [act_eof, (act_leaves T _ _).2]
    exact eofAfter_inv T heof _ _ _ he
theorem iters_spanned : ∀ (t : Iters) (idx : Nat) (st : Int) (label : Option Nat)
    (kids : List Node) (s : St) (n : Nat) (e : Bool) (xs : List Prim),
    (e = true → (T n).ttype = TOKEN_EOF) →
    leavesL kids = trace T xs n → s.pos = moved T xs n → s.eof = eofAfter T xs n e →
    SpannedL kids → SpannedL (itersDen T t idx st (T n) label kids s).2.1
  | .done, _, _, _, _, s, _, _, _, _, _, _, _, h => by simpa [itersDen] using h
  | .abort pre, _, _, _, _, s, _, _, _, _, _, _, _, h => by
    simp only [itersDen]
    exact spannedL_append T hidx _ _ h (prims_spanned T hidx _ _)
  | .iter pre label' body rest, idx, st, label, kids, s, n, e, xs, he, hk, hp, hs, h => by
    simp only [itersDen]
    have hl1 := prims_leaves T pre s
    have hl2 := acts_leaves T body (primsDen T pre s).2
    have hkp : leavesL (kids ++ (primsDen T pre s).1) = trace T (xs ++ pre) n := by
      rw [leavesL_append, hk, hl1.1, trace_append, hp]
    have he1 : (primsDen T pre s).2.eof = eofAfter T (xs ++ pre) n e := by
      rw [prims_eof, hp, hs, eofAfter_append]
    have hp1 : (primsDen T pre s).2.pos = moved T (xs ++ pre) n := by
      rw [hl1.2, hp, moved_append]
    refine iters_spanned rest idx st label' _ _ n e (xs ++ pre ++ flatActs body) he ?_ ?_ ?_ ?_
    · simp only [leavesL, leaves]
      rw [hkp, hl2.1, hp1, ← trace_append]
    · rw [hl2.2, hp1, ← moved_append]
    · rw [acts_eof, he1, hp1, ← eofAfter_append]
    · rw [SpannedL, Spanned]
      refine ⟨⟨?_, ?_, spannedL_append T hidx _ _ h (prims_spanned T hidx _ _)⟩, ?_⟩
      · intro t ht
        rw [consumedLeaves_eq T hkp] at ht
        exact got_head T hidx _ _ t ht
      · intro t ht hne
        rw [consumedLeaves_eq T hkp] at ht
        exact (span_stop T hidx _ _ _ he t ht hne _ hp1 he1).2
      · refine acts_spanned body _ ?_
        rw [he1, hp1]
        exact eofAfter_inv T heof _ _ _ he
end
end

end Antlr.ParserLemmas

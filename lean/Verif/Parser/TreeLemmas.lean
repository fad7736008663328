import Verif.Prelude
import Verif.Parser.TreeSpec

namespace Antlr.ParserLemmas
open Antlr ParserSpec

variable (T : Nat → Tok)

theorem leavesL_append (a b : List Node) : leavesL (a ++ b) = leavesL a ++ leavesL b := by
  induction a with
  | nil => simp [leavesL]
  | cons n ns ih => simp [leavesL, ih]

theorem skelL_append (a b : List Node) : skelL (a ++ b) = skelL a ++ skelL b := by
  induction a with
  | nil => simp [skelL]
  | cons n ns ih => simp [skelL, ih]

theorem moved_append (a b : List Prim) (n : Nat) : moved T (a ++ b) n = moved T b (moved T a n) := by
  induction a generalizing n with
  | nil => rfl
  | cons x xs ih => cases x <;> simp [moved, ih]

theorem trace_append (a b : List Prim) (n : Nat) :
    trace T (a ++ b) n = trace T a n ++ trace T b (moved T a n) := by
  induction a generalizing n with
  | nil => rfl
  | cons x xs ih =>
    cases x <;> simp [moved, trace, ih]
    split <;> simp

theorem prims_leaves (xs : List Prim) (s : St) :
    leavesL (primsDen T xs s).1 = trace T xs s.pos ∧ (primsDen T xs s).2.pos = moved T xs s.pos := by
  induction xs generalizing s with
  | nil => simp [primsDen, leavesL, trace, moved]
  | cons x xs ih =>
    have := ih (primDen T x s).2
    simp only [primsDen, leavesL_append, this]
    cases x <;> simp [primDen, trace, moved, leavesL, leaves, advance]
    all_goals (repeat' split) <;> simp_all [leavesL, leaves]

mutual
theorem act_leaves : ∀ (a : Act) (s : St),
    leavesL (actDen T a s).1 = trace T (flatAct a) s.pos ∧
      (actDen T a s).2.pos = moved T (flatAct a) s.pos
  | .prim x, s => by
    have := prims_leaves T [x] s
    simpa [primsDen, actDen, flatAct] using this
  | .rule idx st pre label body, s => by
    have h1 := prims_leaves T pre { s with state := st }
    have h2 := acts_leaves body (primsDen T pre { s with state := st }).2
    simp only [actDen, leavesL, leaves, leavesL_append, flatAct, trace_append, moved_append,
      List.append_nil, h1.1, h2.1, h2.2, h1.2, and_self]
  | .noAlt idx st pre, s => by
    have h1 := prims_leaves T pre { s with state := st }
    simp only [actDen, leavesL, leaves, flatAct, List.append_nil, h1.1, h1.2, and_self]
  | .recRule idx st prec pre label primary tail, s => by
    have h1 := prims_leaves T pre { s with state := st }
    have h2 := acts_leaves primary (primsDen T pre { s with state := st }).2
    have h3 := iters_leaves tail idx st (T s.pos) label
      ((primsDen T pre { s with state := st }).1 ++
        (actsDen T primary (primsDen T pre { s with state := st }).2).1)
      (actsDen T primary (primsDen T pre { s with state := st }).2).2
    simp only [actDen, leavesL, leaves, flatAct, trace_append, moved_append,
      List.append_nil, h3.1, h3.2, leavesL_append, h1.1, h2.1, h2.2, h1.2, and_self]
theorem acts_leaves : ∀ (b : Acts) (s : St),
    leavesL (actsDen T b s).1 = trace T (flatActs b) s.pos ∧
      (actsDen T b s).2.pos = moved T (flatActs b) s.pos
  | .nil, s => by simp [actsDen, leavesL, flatActs, trace, moved]
  | .cons a rest, s => by
    have h1 := act_leaves a s
    have h2 := acts_leaves rest (actDen T a s).2
    simp only [actsDen, leavesL_append, flatActs, trace_append, moved_append, h1.1, h2.1, h2.2, h1.2,
      and_self]
theorem iters_leaves : ∀ (t : Iters) (idx : Nat) (st : Int) (start : Tok) (label : Option Nat)
    (kids : List Node) (s : St),
    leavesL (itersDen T t idx st start label kids s).2.1 =
        leavesL kids ++ trace T (flatIters t) s.pos ∧
      (itersDen T t idx st start label kids s).2.2.pos = moved T (flatIters t) s.pos
  | .done, _, _, _, _, _, s => by simp [itersDen, flatIters, trace, moved]
  | .abort pre, _, _, _, _, _, s => by
    have h1 := prims_leaves T pre s
    simp only [itersDen, leavesL_append, flatIters, h1.1, h1.2, and_self]
  | .iter pre label' body rest, idx, st, start, label, kids, s => by
    have h1 := prims_leaves T pre s
    have h2 := acts_leaves body (primsDen T pre s).2
    have h3 := iters_leaves rest idx st start label'
      (Node.rule idx label st start (prevTok T (primsDen T pre s).2.pos)
        (kids ++ (primsDen T pre s).1) :: (actsDen T body (primsDen T pre s).2).1)
      (actsDen T body (primsDen T pre s).2).2
    simp only [itersDen, flatIters]
    rw [h3.1, h3.2]
    simp only [trace_append, moved_append, leavesL, leaves,
      leavesL_append, h1.1, h2.1, h2.2, h1.2, List.append_assoc, and_self]
end

theorem prims_skel (xs : List Prim) (s : St) : skelL (primsDen T xs s).1 = [] := by
  induction xs generalizing s with
  | nil => simp [primsDen, skelL]
  | cons x xs ih =>
    simp only [primsDen, skelL_append, ih, List.append_nil]
    cases x <;> simp [primDen, skelL, skel]
    split <;> simp [skelL, skel]

mutual
theorem act_skel : ∀ (a : Act) (s : St), skelL (actDen T a s).1 = callsAct a
  | .prim x, s => by
    have := prims_skel T [x] s
    simpa [primsDen, actDen, callsAct] using this
  | .rule idx st pre label body, s => by
    simp only [actDen, skelL, skel, skelL_append, prims_skel, acts_skel body, callsAct,
      List.nil_append, List.append_nil]
  | .noAlt idx st pre, s => by
    simp only [actDen, skelL, skel, prims_skel, callsAct, List.append_nil]
  | .recRule idx st prec pre label primary tail, s => by
    have := iters_skel tail idx st (T s.pos) label
      ((primsDen T pre { s with state := st }).1 ++
        (actsDen T primary (primsDen T pre { s with state := st }).2).1)
      (actsDen T primary (primsDen T pre { s with state := st }).2).2
    simp only [actDen, skelL, skel, callsAct, List.append_nil]
    rw [this, skelL_append, prims_skel, acts_skel primary, List.nil_append]
theorem acts_skel : ∀ (b : Acts) (s : St), skelL (actsDen T b s).1 = callsActs b
  | .nil, s => by simp [actsDen, skelL, callsActs]
  | .cons a rest, s => by
    simp only [actsDen, skelL_append, act_skel a, acts_skel rest, callsActs]
theorem iters_skel : ∀ (t : Iters) (idx : Nat) (st : Int) (start : Tok) (label : Option Nat)
    (kids : List Node) (s : St),
    Skel.mk idx (itersDen T t idx st start label kids s).1
        (skelL (itersDen T t idx st start label kids s).2.1) =
      callsIters t idx (.mk idx label (skelL kids))
  | .done, _, _, _, _, _, s => by simp [itersDen, callsIters]
  | .abort pre, _, _, _, _, _, s => by
    simp only [itersDen, skelL_append, prims_skel, callsIters, List.append_nil]
  | .iter pre label' body rest, idx, st, start, label, kids, s => by
    simp only [itersDen, callsIters]
    rw [iters_skel rest]
    simp only [skelL, skel, skelL_append, prims_skel, acts_skel body, List.append_nil,
      List.singleton_append]
end

/-! ## Events -/

theorem prims_balanced (xs : List Prim) (s : St) : Balanced (primsEv T xs s) := by
  induction xs generalizing s with
  | nil => exact .nil
  | cons x xs ih =>
    refine .append _ _ ?_ (ih _)
    cases x
    · exact .leaf _ _
    · exact .leaf _ _
    all_goals exact .nil

mutual
theorem act_balanced : ∀ (a : Act) (s : St), cleanAct a → Balanced (actEv T a s)
  | .prim x, s, _ => by
    have := prims_balanced T [x] s
    simpa [primsEv, actEv] using this
  | .rule idx st pre label body, s, h => by
    rw [cleanAct] at h
    rw [actEv, List.append_assoc]
    exact .append _ _ (prims_balanced T _ _) (.wrap _ _ _ _ (acts_balanced body _ h))
  | .noAlt idx st pre, s, h => by simp [cleanAct] at h
  | .recRule idx st prec pre label primary tail, s, h => by
    rw [cleanAct] at h
    simp only [actEv]
    obtain ⟨mid, l', rest, e, h1, h2⟩ := iters_balanced tail idx label
      (actsDen T primary (primsDen T pre { s with state := st }).2).2 h.2
    rw [e]
    have e2 : (PEvent.enter idx none :: primsEv T pre { s with state := st } ++
        actsEv T primary (primsDen T pre { s with state := st }).2 ++
        (mid ++ PEvent.exit idx l' :: rest)) =
      (PEvent.enter idx none :: (primsEv T pre { s with state := st } ++
        actsEv T primary (primsDen T pre { s with state := st }).2 ++ mid) ++
        [PEvent.exit idx l']) ++ rest := by simp
    rw [e2]
    exact .append _ _ (.wrap _ _ _ _ (.append _ _ (.append _ _ (prims_balanced T _ _)
      (acts_balanced primary _ h.1)) h1)) h2
theorem acts_balanced : ∀ (b : Acts) (s : St), cleanActs b → Balanced (actsEv T b s)
  | .nil, s, _ => by rw [actsEv]; exact .nil
  | .cons a rest, s, h => by
    rw [cleanActs] at h
    rw [actsEv]
    exact .append _ _ (act_balanced a s h.1) (acts_balanced rest _ h.2)
theorem iters_balanced : ∀ (t : Iters) (idx : Nat) (label : Option Nat) (s : St), cleanIters t →
    ∃ mid l' rest, itersEv T t idx label s = mid ++ .exit idx l' :: rest ∧ Balanced mid ∧
      Balanced rest
  | .done, idx, label, s, _ => ⟨[], label, [], by simp [itersEv], .nil, .nil⟩
  | .abort pre, _, _, _, h => by simp [cleanIters] at h
  | .iter pre label' body rest, idx, label, s, h => by
    rw [cleanIters] at h
    obtain ⟨mid, l', r, e, h1, h2⟩ := iters_balanced rest idx label'
      (actsDen T body (primsDen T pre s).2).2 h.2
    refine ⟨[], label, primsEv T pre s ++ .enter idx label' :: actsEv T body (primsDen T pre s).2 ++
      itersEv T rest idx label' (actsDen T body (primsDen T pre s).2).2,
      by rw [itersEv]; simp, .nil, ?_⟩
    rw [e]
    have e2 : (primsEv T pre s ++ PEvent.enter idx label' :: actsEv T body (primsDen T pre s).2 ++
        (mid ++ PEvent.exit idx l' :: r)) =
      primsEv T pre s ++ ((PEvent.enter idx label' :: (actsEv T body (primsDen T pre s).2 ++ mid) ++
        [PEvent.exit idx l']) ++ r) := by simp
    rw [e2]
    exact .append _ _ (prims_balanced T _ _) (.append _ _ (.wrap _ _ _ _
      (.append _ _ (acts_balanced body _ h.1) h1)) h2)
end

theorem plainPre_den (xs : List Prim) (s : St) (h : ∀ x ∈ xs, plainPre x) :
    (primsDen T xs s).1 = [] ∧ primsEv T xs s = [] := by
  induction xs generalizing s with
  | nil => exact ⟨rfl, rfl⟩
  | cons x xs ih =>
    obtain ⟨h1, h2⟩ := ih (primDen T x s).2 (fun y hy => h y (by simp [hy]))
    have hx := h x (by simp)
    rw [primsDen, primsEv, h1, h2]
    cases x <;> simp_all [plainPre, primDen, primEv]

theorem walkEvL_append (a b : List Node) : walkEvL (a ++ b) = walkEvL a ++ walkEvL b := by
  induction a with
  | nil => simp [walkEvL]
  | cons n ns ih => simp [walkEvL, ih]

mutual
theorem act_walk : ∀ (a : Act) (s : St), plainAct a → walkEvL (actDen T a s).1 = actEv T a s
  | .prim x, s, h => by
    rw [plainAct] at h
    cases x <;> simp_all [plainPrim, actDen, primDen, actEv, primEv, walkEvL, walkEv]
  | .rule idx st pre label body, s, h => by
    rw [plainAct] at h
    obtain ⟨h1, h2⟩ := plainPre_den T pre { s with state := st } h.1
    simp only [actDen, actEv, walkEvL, walkEv, h1, h2, acts_walk body _ h.2, List.append_nil,
      List.nil_append]
  | .noAlt _ _ _, _, h => by simp [plainAct] at h
  | .recRule .., _, h => by simp [plainAct] at h
theorem acts_walk : ∀ (b : Acts) (s : St), plainActs b → walkEvL (actsDen T b s).1 = actsEv T b s
  | .nil, s, _ => by simp [actsDen, actsEv, walkEvL]
  | .cons a rest, s, h => by
    rw [plainActs] at h
    rw [actsDen, actsEv, walkEvL_append, act_walk a s h.1, acts_walk rest _ h.2]
end

theorem evLeaves_append (a b : List PEvent) : evLeaves (a ++ b) = evLeaves a ++ evLeaves b := by
  induction a with
  | nil => rfl
  | cons e es ih => cases e <;> simp [evLeaves, ih]

/-- Operations without the made up tokens. -/
def real (xs : List Prim) : List Prim := xs.filter fun | .conjure _ => false | _ => true

theorem real_append (a b : List Prim) : real (a ++ b) = real a ++ real b := by simp [real]

theorem moved_real (xs : List Prim) (n : Nat) : moved T (real xs) n = moved T xs n := by
  induction xs generalizing n with
  | nil => rfl
  | cons x xs ih => cases x <;> simp [real, moved] <;> exact ih _

theorem trace_real_append (a b : List Prim) (n : Nat) :
    trace T (real (a ++ b)) n = trace T (real a) n ++ trace T (real b) (moved T a n) := by
  rw [real_append, trace_append, moved_real]

theorem prims_evLeaves (xs : List Prim) (s : St) :
    evLeaves (primsEv T xs s) = trace T (real xs) s.pos := by
  induction xs generalizing s with
  | nil => rfl
  | cons x xs ih =>
    rw [primsEv, evLeaves_append, ih, ← List.singleton_append (l := xs), trace_real_append]
    congr 1
    · cases x <;> simp [primEv, evLeaves, real, trace]
    · congr 1
      have := (prims_leaves T [x] s).2
      simpa [primsDen] using this

mutual
theorem act_evLeaves : ∀ (a : Act) (s : St),
    evLeaves (actEv T a s) = trace T (real (flatAct a)) s.pos
  | .prim x, s => by
    have := prims_evLeaves T [x] s
    simpa [primsEv, actEv, flatAct] using this
  | .rule idx st pre label body, s => by
    have e := (prims_leaves T pre { s with state := st }).2
    simp only [actEv, flatAct, trace_real_append, evLeaves_append, evLeaves, prims_evLeaves,
      acts_evLeaves body, e, List.append_nil, List.cons_append]
  | .noAlt idx st pre, s => by
    simp only [actEv, flatAct, evLeaves_append, evLeaves, prims_evLeaves, List.append_nil]
  | .recRule idx st prec pre label primary tail, s => by
    have e := (prims_leaves T pre { s with state := st }).2
    have e2 := (acts_leaves T primary (primsDen T pre { s with state := st }).2).2
    simp only [actEv, flatAct, trace_real_append, evLeaves_append, evLeaves, prims_evLeaves,
      acts_evLeaves primary, iters_evLeaves tail, e, e2, moved_append, List.cons_append]
theorem acts_evLeaves : ∀ (b : Acts) (s : St),
    evLeaves (actsEv T b s) = trace T (real (flatActs b)) s.pos
  | .nil, s => by simp [actsEv, evLeaves, flatActs, real, trace]
  | .cons a rest, s => by
    have e := (act_leaves T a s).2
    simp only [actsEv, evLeaves_append, flatActs, trace_real_append, act_evLeaves a,
      acts_evLeaves rest, e]
theorem iters_evLeaves : ∀ (t : Iters) (idx : Nat) (label : Option Nat) (s : St),
    evLeaves (itersEv T t idx label s) = trace T (real (flatIters t)) s.pos
  | .done, _, _, s => by simp [itersEv, evLeaves, flatIters, real, trace]
  | .abort pre, _, _, s => by
    simp only [itersEv, evLeaves, List.cons_append, evLeaves_append, flatIters, prims_evLeaves,
      List.append_nil]
  | .iter pre label' body rest, idx, label, s => by
    have e := (prims_leaves T pre s).2
    have e2 := (acts_leaves T body (primsDen T pre s).2).2
    simp only [itersEv, flatIters, trace_real_append, evLeaves_append, evLeaves, prims_evLeaves,
      acts_evLeaves body, iters_evLeaves rest, e, e2, moved_append, List.cons_append]
end

theorem moved_le (xs : List Prim) (n : Nat) : n ≤ moved T xs n := by
  induction xs generalizing n with
  | nil => exact Nat.le_refl _
  | cons x xs ih =>
    cases x <;> simp only [moved]
    case matchTok => split; exacts [ih _, Nat.le_of_succ_le (ih _)]
    case consume => split; exacts [ih _, Nat.le_of_succ_le (ih _)]
    all_goals exact ih _

/-- The real tokens in a trace other than EOF are the tokens passed over. -/
theorem trace_range (hidx : ∀ n, (T n).index ≠ -1) (xs : List Prim) (n : Nat) :
    ((trace T xs n).map (·.1)).filter (fun t => t.index ≠ -1 ∧ t.ttype ≠ TOKEN_EOF) =
      (List.range' n (moved T xs n - n)).map T := by
  induction xs generalizing n with
  | nil => simp [trace, moved]
  | cons x xs ih =>
    have step : ∀ b, (((T n, b) :: trace T xs (if (T n).ttype = TOKEN_EOF then n else n + 1)).map
        (·.1)).filter (fun t => t.index ≠ -1 ∧ t.ttype ≠ TOKEN_EOF) =
      (List.range' n (moved T xs (if (T n).ttype = TOKEN_EOF then n else n + 1) - n)).map T := by
      intro b
      rw [List.map_cons, List.filter_cons]
      by_cases h : (T n).ttype = TOKEN_EOF
      · simp only [h, if_true]
        rw [if_neg (by simp)]
        exact ih n
      · simp only [h, if_false]
        rw [if_pos (by simp [h, hidx])]
        have := moved_le T xs (n + 1)
        have e : moved T xs (n + 1) - n = (moved T xs (n + 1) - (n + 1)) + 1 := by omega
        rw [e, List.range'_succ, List.map_cons]
        congr 1
        exact ih (n + 1)
    cases x with
    | matchTok => exact step false
    | consume r => exact step r
    | conjure t =>
      simp only [trace, moved]
      split
      · rename_i h
        rw [List.map_cons, List.filter_cons, if_neg (by simp [h])]
        exact ih n
      · exact ih n
    | setState => exact ih n
    | markStop => exact ih n

theorem heard_append (who : Nat) (a b : List (Nat × PEvent)) :
    heard who (a ++ b) = heard who a ++ heard who b := by simp [heard]

theorem heard_none (who : Nat) (e : PEvent) (ls : List PListener)
    (h : who ∉ ls.map (·.who)) : heard who (ls.map fun x => (x.who, e)) = [] := by
  induction ls with
  | nil => rfl
  | cons l ls ih =>
    simp only [List.map_cons, List.mem_cons, not_or] at h
    have := ih h.2
    simp only [heard] at this ⊢
    rw [List.map_cons, List.filter_cons, if_neg (by simpa using fun e => h.1 e.symm)]
    exact this

theorem heard_one (who : Nat) (e : PEvent) (ls : List PListener) (hn : (ls.map (·.who)).Nodup)
    (h : who ∈ ls.map (·.who)) : heard who (ls.map fun x => (x.who, e)) = [e] := by
  induction ls with
  | nil => simp at h
  | cons l ls ih =>
    simp only [List.map_cons, List.nodup_cons] at hn
    rw [List.map_cons, ← List.singleton_append, heard_append]
    by_cases hw : l.who = who
    · subst hw
      rw [heard_none _ _ _ hn.1]
      simp [heard]
    · have : who ∈ ls.map (·.who) := by
        simp only [List.map_cons, List.mem_cons] at h
        rcases h with h | h
        · exact absurd h.symm hw
        · exact h
      rw [ih hn.2 this]
      simp [heard, hw]

theorem heard_dispatch (who : Nat) (ls : List PListener) (hn : (ls.map (·.who)).Nodup)
    (evs : List PEvent) : heard who (evs.flatMap (dispatch ls)) =
      if who ∈ ls.map (·.who) then evs else [] := by
  induction evs with
  | nil => simp [heard]
  | cons e es ih =>
    rw [List.flatMap_cons, heard_append, ih]
    by_cases h : who ∈ ls.map (·.who)
    · have hr : who ∈ ls.reverse.map (·.who) := by simpa using h
      have hnr : (ls.reverse.map (·.who)).Nodup := by
        rw [List.map_reverse]; simpa [List.Nodup, List.pairwise_reverse, ne_comm] using hn
      simp only [h, if_true]
      cases e with
      | exit r l => rw [dispatch, heard_one who _ _ hnr hr]; rfl
      | enter r l => simp [dispatch, heard_one who _ _ hn h]
      | leaf t b => simp [dispatch, heard_one who _ _ hn h]
    · have hr : who ∉ ls.reverse.map (·.who) := by simpa using h
      simp only [h, if_false]
      cases e with
      | exit r l => rw [dispatch, heard_none who _ _ hr]; rfl
      | enter r l => simp [dispatch, heard_none who _ _ h]
      | leaf t b => simp [dispatch, heard_none who _ _ h]

end Antlr.ParserLemmas

import Verif.Prelude
import Verif.Tree.Model

/-!
# Properties of finished parse trees (C54, C55, C56, C65)
-/

namespace Antlr.TreeProps
open Antlr PTree

/-! ## Specification -/

/-- What a listener can be told. -/
inductive Ev where
  | enter (t : PTree) | exit (t : PTree) | term (tok : Tok) | err (tok : Tok)

/-- The listener that writes down everything it is told. -/
def recorder : Listener (List Ev) :=
  { enterRule := fun t s => s ++ [.enter t], exitRule := fun t s => s ++ [.exit t],
    visitTerminal := fun k s => s ++ [.term k], visitErrorNode := fun k s => s ++ [.err k] }

/-- A listener hears one event. -/
def hear {σ} (l : Listener σ) (s : σ) : Ev → σ
  | .enter t => l.enterRule t s
  | .exit t => l.exitRule t s
  | .term k => l.visitTerminal k s
  | .err k => l.visitErrorNode k s

/-- A rule node's own data. -/
def label : PTree → Option (Nat × Int)
  | rule i a _ => some (i, a)
  | leaf .. => none

/-- Rebuild the trees from events alone, using of each entered or left node only its label; `none` if
the events do not nest.  `sib` are the finished siblings, `st` the open nodes with their siblings. -/
def rebuild : List Ev → List PTree → List ((Nat × Int) × List PTree) → Option (List PTree)
  | [], sib, [] => some sib
  | [], _, _ :: _ => none
  | .enter t :: es, sib, st => (label t).bind fun l => rebuild es [] ((l, sib) :: st)
  | .exit _ :: _, _, [] => none
  | .exit t :: es, sib, (l, sib') :: st =>
    if label t = some l then rebuild es (sib' ++ [rule l.1 l.2 sib]) st else none
  | .term k :: es, sib, st => rebuild es (sib ++ [leaf k false]) st
  | .err k :: es, sib, st => rebuild es (sib ++ [leaf k true]) st

mutual
/-- The tokens of the leaves, left to right. -/
def leaves : PTree → List Tok
  | rule _ _ cs => leavesList cs
  | leaf k _ => [k]
def leavesList : List PTree → List Tok
  | [] => []
  | c :: cs => leaves c ++ leavesList cs
end

/-! ## C54 -/

mutual
/-- The events of one tree. -/
def events : PTree → List Ev
  | rule i a cs => .enter (rule i a cs) :: (eventsList cs ++ [.exit (rule i a cs)])
  | leaf k false => [.term k]
  | leaf k true => [.err k]
def eventsList : List PTree → List Ev
  | [] => []
  | c :: cs => events c ++ eventsList cs
end

mutual
theorem walk_eq {σ} (l : Listener σ) (t : PTree) (s : σ) :
    walk l t s = (events t).foldl (hear l) s := by
  match t with
  | rule i a cs =>
    simp only [walk, events, List.foldl_cons, List.foldl_append, List.foldl_nil, hear, enter, exit,
      walkList_eq l cs]
  | leaf k false => simp [walk, events, hear, enter, exit]
  | leaf k true => simp [walk, events, hear, enter, exit]
theorem walkList_eq {σ} (l : Listener σ) (cs : List PTree) (s : σ) :
    walkList l cs s = (eventsList cs).foldl (hear l) s := by
  match cs with
  | [] => simp [walkList, eventsList]
  | c :: cs =>
    rw [walkList, eventsList, List.foldl_append, walk_eq l c s, walkList_eq l cs]
end

theorem recorder_eq (es s : List Ev) : es.foldl (hear recorder) s = s ++ es := by
  induction es generalizing s with
  | nil => simp
  | cons e es ih =>
    rw [List.foldl_cons, ih]
    cases e <;> simp [hear, recorder]

mutual
theorem rebuild_events (t : PTree) (es : List Ev) (sib : List PTree) (st) :
    rebuild (events t ++ es) sib st = rebuild es (sib ++ [t]) st := by
  match t with
  | rule i a cs =>
    simp only [events, List.cons_append, List.append_assoc, rebuild, label, Option.bind_some]
    rw [rebuild_eventsList cs]
    simp [rebuild, label]
  | leaf k false => simp [events, rebuild]
  | leaf k true => simp [events, rebuild]
theorem rebuild_eventsList (cs : List PTree) (es : List Ev) (sib : List PTree) (st) :
    rebuild (eventsList cs ++ es) sib st = rebuild es (sib ++ cs) st := by
  match cs with
  | [] => simp [eventsList]
  | c :: cs =>
    rw [eventsList, List.append_assoc, rebuild_events c, rebuild_eventsList cs]
    simp
end

/-- **C54.**  The events of a walk nest properly and contain every node exactly once: the tree can be
rebuilt from them (labels and tokens only). -/
theorem C54_walk_complete (t : PTree) : rebuild (walk recorder t []) [] [] = some [t] := by
  rw [walk_eq, recorder_eq]
  have := rebuild_events t [] [] []
  simpa [rebuild] using this

/-- **C54, every listener.**  What a listener is told by a walk does not depend on the listener. -/
theorem C54_same_events {σ} (l : Listener σ) (t : PTree) (s : σ) :
    walk l t s = (walk recorder t []).foldl (hear l) s := by
  rw [walk_eq, walk_eq, recorder_eq]; rfl

mutual
theorem events_leaves (t : PTree) :
    (events t).filterMap (fun e => match e with | .term k => some k | .err k => some k | _ => none)
      = leaves t := by
  match t with
  | rule i a cs => simp only [events, leaves]; simp [eventsList_leaves cs]
  | leaf k false => simp [events, leaves]
  | leaf k true => simp [events, leaves]
theorem eventsList_leaves (cs : List PTree) :
    (eventsList cs).filterMap (fun e => match e with | .term k => some k | .err k => some k | _ => none)
      = leavesList cs := by
  match cs with
  | [] => simp [eventsList, leavesList]
  | c :: cs => simp only [eventsList, leavesList, List.filterMap_append, events_leaves c,
      eventsList_leaves cs]
end

/-- **C54, leaves.**  The tokens a walk reports are the leaves of the tree in order. -/
theorem C54_leaves_in_order (t : PTree) :
    (walk recorder t []).filterMap
      (fun e => match e with | .term k => some k | .err k => some k | _ => none) = leaves t := by
  rw [walk_eq, recorder_eq]; exact events_leaves t

/-- `get_children` yields the children in order, each once. -/
theorem C54_get_children (cs : List PTree) : iterChildren cs 0 = cs := by
  have h : ∀ n i, cs.length - i = n → iterChildren cs i = cs.drop i := by
    intro n
    induction n with
    | zero =>
      intro i hi
      rw [iterChildren, dif_neg (by omega), List.drop_eq_nil_of_le (by omega)]
    | succ n ih =>
      intro i hi
      rw [iterChildren, dif_pos (by omega), ih (i + 1) (by omega)]
      exact (List.drop_eq_getElem_cons (by omega)).symm
  simpa using h _ 0 rfl

/-! ## C55 -/

mutual
theorem getText_eq (t : PTree) : getText t = (leaves t).flatMap Tok.getText := by
  match t with
  | rule i a cs => rw [getText, leaves, getTextList_eq cs]; simp
  | leaf k e => simp [getText, leaves]
theorem getTextList_eq (cs : List PTree) (r : List Char) :
    getTextList cs r = r ++ (leavesList cs).flatMap Tok.getText := by
  match cs with
  | [] => simp [getTextList, leavesList]
  | c :: cs =>
    rw [getTextList, leavesList, getTextList_eq cs, getText_eq c]; simp
end

/-- **C55, text.**  `get_text` of a node is the concatenation of its leaves' token texts. -/
theorem C55_text (t : PTree) : getText t = (leaves t).flatMap Tok.getText := getText_eq t

/-- A tree with only the printed node texts. -/
inductive Skel where
  | node (text : List Char) (children : List Skel)

mutual
/-- The printed texts of a tree. -/
def skel (names : List (List Char)) : PTree → Option Skel
  | rule i a cs =>
    ((rule i a cs).nodeText names).bind fun t =>
      (skelList names cs).map fun ks => .node (escapeWhitespaces t false) ks
  | leaf k e => ((leaf k e).nodeText names).map fun t => .node (escapeWhitespaces t false) []
def skelList (names : List (List Char)) : List PTree → Option (List Skel)
  | [] => some []
  | c :: cs => (skel names c).bind fun k => (skelList names cs).map fun ks => k :: ks
end

/-- No space or parenthesis, not empty. -/
def Plain (t : List Char) : Prop := t ≠ [] ∧ ∀ c ∈ t, c ≠ ' ' ∧ c ≠ '(' ∧ c ≠ ')'

instance (t : List Char) : Decidable (Plain t) := inferInstanceAs (Decidable (_ ∧ _))

mutual
/-- All texts are plain. -/
def Skel.AllPlain : Skel → Prop
  | .node t ks => Plain t ∧ Skel.AllPlainList ks
def Skel.AllPlainList : List Skel → Prop
  | [] => True
  | k :: ks => k.AllPlain ∧ Skel.AllPlainList ks
end

mutual
/-- The LISP form of a skeleton. -/
def Skel.str : Skel → List Char
  | .node t ks => match ks with
    | [] => t
    | k :: ks => '(' :: (t ++ (' ' :: k.str ++ Skel.strList ks) ++ [')'])
def Skel.strList : List Skel → List Char
  | [] => []
  | k :: ks => ' ' :: k.str ++ Skel.strList ks
end

theorem Skel.str_node (t : List Char) (k : Skel) (ks : List Skel) :
    (Skel.node t (k :: ks)).str = '(' :: (t ++ Skel.strList (k :: ks) ++ [')']) := by
  rw [Skel.str, Skel.strList]

mutual
theorem stringTree_skel (names : List (List Char)) (t : PTree) :
    stringTree names t = (skel names t).map Skel.str := by
  match t with
  | rule i a cs =>
    rw [stringTree, skel]
    cases h : (rule i a cs).nodeText names with
    | none => rfl
    | some txt =>
      simp only [Option.bind_some]
      cases cs with
      | nil => simp [skelList, Skel.str]
      | cons c cs =>
        simp only [List.isEmpty_cons, Bool.false_eq_true, if_false]
        rw [stringTreeList_skel names (c :: cs)]
        rw [skelList]
        cases hc : skel names c with
        | none => rfl
        | some k =>
          cases hcs : skelList names cs with
          | none => rfl
          | some ks =>
            simp only [Option.bind_some, Option.map_some, Skel.str_node]
            simp
  | leaf k e =>
    rw [stringTree, skel]
    simp only [Option.map_map]
    congr 1
theorem stringTreeList_skel (names : List (List Char)) (cs : List PTree) (acc : List Char) :
    stringTreeList names cs acc = (skelList names cs).map fun ks => acc ++ Skel.strList ks := by
  match cs with
  | [] => simp [stringTreeList, skelList, Skel.strList]
  | c :: cs =>
    rw [stringTreeList, skelList, stringTree_skel names c]
    cases hc : skel names c with
    | none => rfl
    | some k =>
      simp only [Option.map_some, Option.bind_some]
      rw [stringTreeList_skel names cs]
      cases hcs : skelList names cs with
      | none => rfl
      | some ks => simp [Skel.strList]
end

/-- What may follow a printed tree. -/
def Stop (u : List Char) : Prop := u = [] ∨ (∃ v, u = ' ' :: v) ∨ (∃ v, u = ')' :: v)

theorem stop_append_cancel {t t' u u' : List Char} (ht : ∀ c ∈ t, c ≠ ' ' ∧ c ≠ '(' ∧ c ≠ ')')
    (ht' : ∀ c ∈ t', c ≠ ' ' ∧ c ≠ '(' ∧ c ≠ ')') (hu : Stop u) (hu' : Stop u')
    (h : t ++ u = t' ++ u') : t = t' ∧ u = u' := by
  induction t generalizing t' with
  | nil =>
    cases t' with
    | nil => exact ⟨rfl, by simpa using h⟩
    | cons c t' =>
      exfalso
      have hc := ht' c (by simp)
      simp only [List.nil_append] at h
      rcases hu with rfl | ⟨v, rfl⟩ | ⟨v, rfl⟩ <;> simp at h
      · exact hc.1 h.1.symm
      · exact hc.2.2 h.1.symm
  | cons c t ih =>
    cases t' with
    | nil =>
      exfalso
      have hc := ht c (by simp)
      simp only [List.nil_append] at h
      rcases hu' with rfl | ⟨v, rfl⟩ | ⟨v, rfl⟩ <;> simp at h
      · exact hc.1 h.1
      · exact hc.2.2 h.1
    | cons c' t' =>
      simp only [List.cons_append, List.cons.injEq] at h
      obtain ⟨h1, h2⟩ := ih (fun x hx => ht x (by simp [hx])) (fun x hx => ht' x (by simp [hx])) h.2
      exact ⟨by rw [h.1, h1], h2⟩

theorem stop_strList (ks : List Skel) (u : List Char) : Stop (Skel.strList ks ++ ')' :: u) := by
  cases ks with
  | nil => right; right; exact ⟨u, by simp [Skel.strList]⟩
  | cons k ks => right; left; exact ⟨_, by rw [Skel.strList]; rfl⟩

mutual
theorem str_cancel (a b : Skel) (ha : a.AllPlain) (hb : b.AllPlain) (u v : List Char) (hu : Stop u)
    (hv : Stop v) (h : a.str ++ u = b.str ++ v) : a = b ∧ u = v := by
  match a, b with
  | .node t [], .node t' [] =>
    simp only [Skel.str] at h
    simp only [Skel.AllPlain] at ha hb
    obtain ⟨h1, h2⟩ := stop_append_cancel ha.1.2 hb.1.2 hu hv h
    exact ⟨by rw [h1], h2⟩
  | .node t [], .node t' (k :: ks) =>
    exfalso
    simp only [Skel.AllPlain] at ha hb
    rw [Skel.str_node, Skel.str] at h
    obtain ⟨c, t2, rfl⟩ := List.exists_cons_of_ne_nil ha.1.1
    have := ha.1.2 c (by simp)
    simp at h; simp_all
  | .node t (k :: ks), .node t' [] =>
    exfalso
    simp only [Skel.AllPlain] at ha hb
    rw [Skel.str_node, Skel.str] at h
    obtain ⟨c, t2, rfl⟩ := List.exists_cons_of_ne_nil hb.1.1
    have := hb.1.2 c (by simp)
    simp at h
    exact this.2.1 h.1.symm
  | .node t (k :: ks), .node t' (k' :: ks') =>
    simp only [Skel.AllPlain] at ha hb
    rw [Skel.str_node, Skel.str_node] at h
    simp only [List.cons_append, List.append_assoc, List.nil_append, List.cons.injEq, true_and] at h
    obtain ⟨h1, h2⟩ := stop_append_cancel ha.1.2 hb.1.2 (stop_strList _ _) (stop_strList _ _) h
    obtain ⟨h3, h4⟩ := strList_cancel (k :: ks) (k' :: ks') ha.2 hb.2 u v h2
    exact ⟨by rw [h1, h3], h4⟩
theorem strList_cancel (as bs : List Skel) (ha : Skel.AllPlainList as) (hb : Skel.AllPlainList bs)
    (u v : List Char)
    (h : Skel.strList as ++ ')' :: u = Skel.strList bs ++ ')' :: v) : as = bs ∧ u = v := by
  match as, bs with
  | [], [] => simpa [Skel.strList] using h
  | [], b :: bs => simp [Skel.strList] at h
  | a :: as, [] => simp [Skel.strList] at h
  | a :: as, b :: bs =>
    simp only [Skel.strList, List.cons_append, List.append_assoc, List.cons.injEq, true_and] at h
    simp only [Skel.AllPlainList] at ha hb
    obtain ⟨h1, h2⟩ := str_cancel a b ha.1 hb.1 _ _ (stop_strList as u) (stop_strList bs v) h
    obtain ⟨h3, h4⟩ := strList_cancel as bs ha.2 hb.2 u v h2
    exact ⟨by rw [h1, h3], h4⟩
end

/-- **C55, partial: the LISP form determines the printed tree** when no node text contains a space or a
parenthesis or is empty.  Missing: other texts, for which it is false (`C55_false_shape`). -/
theorem C55_shape_partial (names : List (List Char)) (a b : PTree) (ka kb : Skel)
    (ha : skel names a = some ka) (hb : skel names b = some kb) (pa : ka.AllPlain) (pb : kb.AllPlain)
    (h : stringTree names a = stringTree names b) : ka = kb := by
  rw [stringTree_skel, stringTree_skel, ha, hb] at h
  simp only [Option.map_some, Option.some.injEq] at h
  exact (str_cancel ka kb pa pb [] [] (Or.inl rfl) (Or.inl rfl) (by simpa using h)).1

/-- **C55, negative: the LISP form does not determine the tree**: spaces are not escaped, so two tokens
`a` and `b` print like the one token `a b`. -/
theorem C55_false_shape :
    ∃ (names : List (List Char)) (a b : PTree), a.children.length ≠ b.children.length ∧
      stringTree names a = stringTree names b ∧ (stringTree names a).isSome = true :=
  ⟨[['r']], rule 0 0 [leaf { ttype := 1, text := ['a'] } false, leaf { ttype := 1, text := ['b'] } false],
    rule 0 0 [leaf { ttype := 1, text := ['a', ' ', 'b'] } false], by decide, by decide +kernel,
    by decide +kernel⟩

/-- a tree with an error leaf and a nested rule -/
def exTree : PTree :=
  rule 0 0 [leaf { ttype := 1, text := ['x'] } false,
    rule 1 2 [leaf { ttype := 2, text := ['y', '\n'] } true, leaf { ttype := -1 } false],
    rule 1 0 []]

def exNames : List (List Char) := [['s'], ['e']]

example : stringTree exNames exTree = some "(s x (e:2 y\\n <EOF>) e)".toList := by decide +kernel
example : ∃ k, skel exNames exTree = some k ∧ k.AllPlain :=
  ⟨.node ['s'] [.node ['x'] [], .node ['e', ':', '2'] [.node ['y', '\\', 'n'] [],
    .node eofText []], .node ['e'] []], by rfl, by
      simp only [Skel.AllPlain, Skel.AllPlainList, eofText]; decide⟩

/-- The escaped text of a node is on one line and has no tabs; a text without line breaks and tabs is
shown as it is, and every line break, carriage return and tab as its two-character escape in place. -/
theorem C55_escape (pre post : List Char) (b : Bool) :
    (∀ ch ∈ escapeWhitespaces pre b, ch ≠ '\n' ∧ ch ≠ '\r' ∧ ch ≠ '\t' ∧ (b = true → ch ≠ ' ')) ∧
    ((∀ ch ∈ pre, ch ≠ '\n' ∧ ch ≠ '\r' ∧ ch ≠ '\t') → escapeWhitespaces pre false = pre) ∧
    (∀ p ∈ [('\n', 'n'), ('\r', 'r'), ('\t', 't')], escapeWhitespaces (pre ++ p.1 :: post) b =
      escapeWhitespaces pre b ++ '\\' :: p.2 :: escapeWhitespaces post b) := by
  refine ⟨?_, ?_, ?_⟩
  · intro ch h
    simp only [escapeWhitespaces, List.mem_flatMap] at h
    obtain ⟨x, _, h⟩ := h
    by_cases h1 : x = ' ' ∧ b = true
    · rw [if_pos h1] at h
      simp only [List.mem_singleton] at h; subst h
      simp
    · rw [if_neg h1] at h
      by_cases h2 : x = '\t'
      · simp only [h2, if_true, List.mem_cons, List.not_mem_nil, or_false] at h
        rcases h with rfl | rfl <;> simp
      · rw [if_neg h2] at h
        by_cases h3 : x = '\n'
        · simp only [h3, if_true, List.mem_cons, List.not_mem_nil, or_false] at h
          rcases h with rfl | rfl <;> simp
        · rw [if_neg h3] at h
          by_cases h4 : x = '\r'
          · simp only [h4, if_true, List.mem_cons, List.not_mem_nil, or_false] at h
            rcases h with rfl | rfl <;> simp
          · rw [if_neg h4] at h
            simp only [List.mem_singleton] at h; subst h
            exact ⟨h3, h4, h2, fun hb e => h1 ⟨e, hb⟩⟩
  · intro h
    induction pre with
    | nil => rfl
    | cons x l ih =>
      obtain ⟨h1, h2, h3⟩ := h x (by simp)
      have := ih fun ch hc => h ch (by simp [hc])
      simp only [escapeWhitespaces, List.flatMap_cons] at this ⊢
      rw [this]
      simp [h1, h2, h3]
  · intro p hp
    simp only [List.mem_cons, List.not_mem_nil, or_false] at hp
    rcases hp with rfl | rfl | rfl <;> simp [escapeWhitespaces]

example : escapeWhitespaces ['a', '\n', ' ', '\t'] false = ['a', '\\', 'n', ' ', '\\', 't'] := by decide

/-! ## C56 -/

mutual
/-- What the visit of a tree should return and leave behind, without any temporary: children left to
right, each visited once as long as `shouldVisitNext` allows, results aggregated in order. -/
def result {σ R} (v : Visitor σ R) (t : PTree) (s : σ) : R × σ :=
  match t with
  | rule i a cs => match v.onRule (rule i a cs) with
    | some f => f s
    | none => results v cs v.default s
  | leaf k false => v.visitTerminal k s
  | leaf k true => v.visitErrorNode k s
def results {σ R} (v : Visitor σ R) (cs : List PTree) (acc : R) (s : σ) : R × σ :=
  match cs with
  | [] => (acc, s)
  | c :: cs =>
    if v.shouldVisitNext s c acc then
      let r := result v c s
      results v cs (v.aggregate r.2 acc r.1) r.2
    else (acc, s)
end

mutual
theorem visitNode_eq {σ R} (v : Visitor σ R) (t : PTree) (s : σ × R) :
    visitNode v t s = ((result v t s.1).2, (result v t s.1).1) := by
  match t with
  | rule i a cs =>
    rw [visitNode, result]
    cases v.onRule (rule i a cs) with
    | some f => rfl
    | none =>
      simp only
      have := visitChildren_eq v cs v.default s
      rw [this.1, this.2]
  | leaf k false => rw [visitNode, result]
  | leaf k true => rw [visitNode, result]
theorem visitChildren_eq {σ R} (v : Visitor σ R) (cs : List PTree) (acc : R) (s : σ × R) :
    (visitChildren v cs acc s).1 = (results v cs acc s.1).1 ∧
      (visitChildren v cs acc s).2.1 = (results v cs acc s.1).2 := by
  match cs with
  | [] => simp [visitChildren, results]
  | c :: cs =>
    rw [visitChildren, results]
    split
    · simp only [visitNode_eq v c s]
      exact visitChildren_eq v cs _ _
    · exact ⟨rfl, rfl⟩
end

/-- **C56.**  Whatever was in the temporary slot, `visit` returns the aggregated result of the tree and
leaves the slot empty: nested visits never leak a result. -/
theorem C56_visit {σ R} (v : Visitor σ R) (t : PTree) (s : σ) (tmp : R) :
    visit v t (s, tmp) = ((result v t s).1, (result v t s).2, v.default) := by
  rw [visit, visitNode_eq]

/-- **C56, the slot between siblings**: after visiting children the slot is empty again. -/
theorem C56_slot_empty {σ R} (v : Visitor σ R) (cs : List PTree) (acc : R) (s : σ) :
    (visitChildren v cs acc (s, v.default)).2.2 = v.default := by
  induction cs generalizing acc s with
  | nil => rfl
  | cons c cs ih =>
    rw [visitChildren]
    split
    · exact ih _ _
    · rfl

/-- A visitor that writes down the leaves it visits and gives up when told to. -/
def leafVisitor (stop : List Tok → Bool) : Visitor (List Tok) Unit :=
  { default := (), visitTerminal := fun k s => ((), s ++ [k]), visitErrorNode := fun k s => ((), s ++ [k]),
    aggregate := fun _ _ _ => (), shouldVisitNext := fun s _ _ => !stop s, onRule := fun _ => none }

mutual
theorem leafVisitor_eq (t : PTree) (s : List Tok) :
    (result (leafVisitor fun _ => false) t s).2 = s ++ leaves t := by
  match t with
  | rule i a cs =>
    rw [result, leaves]
    exact leafVisitor_list cs () s
  | leaf k false => rfl
  | leaf k true => rfl
theorem leafVisitor_list (cs : List PTree) (u : Unit) (s : List Tok) :
    (results (leafVisitor fun _ => false) cs u s).2 = s ++ leavesList cs := by
  match cs with
  | [] => simp [results, leavesList]
  | c :: cs =>
    rw [results, leavesList]
    rw [if_pos (by rfl)]
    simp only
    rw [leafVisitor_list cs, leafVisitor_eq c]
    simp
end

/-- **C56, order.**  A visitor that never stops meets every leaf once, left to right. -/
theorem C56_all_leaves (t : PTree) (tmp : Unit) :
    (visit (leafVisitor fun _ => false) t ([], tmp)).2.1 = leaves t := by
  rw [C56_visit]; simpa using leafVisitor_eq t []

/-- The results and states of visiting `cs` one after the other. -/
inductive Chain {σ R} (v : Visitor σ R) : List PTree → R → σ → R → σ → Prop
  | nil {acc s} : Chain v [] acc s acc s
  | cons {c cs acc s acc' s'} : v.shouldVisitNext s c acc = true →
      Chain v cs (v.aggregate (result v c s).2 acc (result v c s).1) (result v c s).2 acc' s' →
      Chain v (c :: cs) acc s acc' s'

/-- **C56, stopping.**  The children visited are a prefix of the children; the next one, if any, is the
first for which `should_visit_next_child` says no. -/
theorem C56_stops {σ R} (v : Visitor σ R) (cs : List PTree) (acc : R) (s : σ) :
    ∃ pre post, cs = pre ++ post ∧
      Chain v pre acc s (results v cs acc s).1 (results v cs acc s).2 ∧
      ∀ c, post.head? = some c →
        v.shouldVisitNext (results v cs acc s).2 c (results v cs acc s).1 = false := by
  induction cs generalizing acc s with
  | nil => exact ⟨[], [], rfl, by rw [results]; exact .nil, by simp⟩
  | cons c cs ih =>
    rw [results]
    by_cases h : v.shouldVisitNext s c acc = true
    · rw [if_pos h]
      obtain ⟨pre, post, h1, h2, h3⟩ := ih (v.aggregate (result v c s).2 acc (result v c s).1)
        (result v c s).2
      exact ⟨c :: pre, post, by rw [h1]; rfl, .cons h h2, h3⟩
    · rw [if_neg h]
      refine ⟨[], c :: cs, rfl, .nil, ?_⟩
      intro c' hc'
      simp at hc'; subst hc'
      simpa using h

example : (visit (leafVisitor fun s => s.length ≥ 2) exTree ([], ())).2.1.map (·.ttype) = [1, 2] := by
  decide +kernel

/-! ## C65 -/

/-- Direct, non-error leaf children. -/
def directTokens (t : PTree) : List Tok :=
  t.children.flatMap fun c => match c with
    | leaf k false => [k]
    | _ => []

theorem filterMap_direct (cs : List PTree) :
    cs.filterMap asTerminal
      = cs.flatMap fun c => match c with | leaf k false => [k] | _ => [] := by
  induction cs with
  | nil => rfl
  | cons c cs ih =>
    match c with
    | rule .. => rw [List.filterMap_cons_none rfl, ih]; rfl
    | leaf k false => rw [List.filterMap_cons_some (show asTerminal (leaf k false) = some k from rfl), ih]; rfl
    | leaf k true => rw [List.filterMap_cons_none rfl, ih]; rfl

/-- **C65.**  `get_tokens(t)` are the direct non-error leaf children of type `t` in order, and
`get_token(t, i)` is the `i`-th of them. -/
theorem C65_tokens (t : PTree) (ttype : Int) (pos : Nat) :
    getTokens t ttype = (directTokens t).filter (fun k => decide (k.ttype = ttype)) ∧
      getToken t ttype pos = (getTokens t ttype)[pos]? := by
  refine ⟨?_, rfl⟩
  unfold getTokens directTokens
  rw [filterMap_direct]
  rfl

end Antlr.TreeProps

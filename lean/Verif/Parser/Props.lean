import Verif.Parser.MainLemma
import Verif.Parser.SpanLemmas
import Verif.Parser.View

/-!
# The parser: properties C49 – C53

A parse is a call of a rule function; `Act` ranges over everything the generated code may do
(src/parser.rs and the generated frames, see `Verif/Parser/Model.lean`): any nesting of ordinary,
labelled and left-recursive rules, any error recovery.  The token stream is any stream that shows the
tokens `T 0, T 1, …` (`IsView`); `view_cts` says that `CommonTokenStream` is one.
-/

namespace Antlr.ParserProps
open Antlr ParserSpec ParserLemmas ParserView TokenSpec

variable {I : Type} [TokStream I] {T : Nat → Tok} {V : I → Nat → Prop}

/-- A call of a rule: not just a single operation. -/
def IsCall (a : Act) : Prop := ∀ x, a ≠ .prim x

/-- The parser stands at token `n` and its current context exists. -/
structure Stands (V : I → Nat → Prop) (p : P I) (n : Nat) : Prop where
  view : V p.input n
  mem : ∀ c, p.ctx = some c → c < p.heap.length

theorem Stands.ready {p : P I} {n : Nat} (h : Stands V p n) :
    Ready V p ⟨n, p.matchedEof, p.state⟩ p.ctx := ⟨h.view, rfl, rfl, rfl, h.mem⟩

theorem stands_new {i : I} (h : V i 0) : Stands V (P.new i) 0 := ⟨h, by simp [P.new]⟩

/-! ## C49: leaves -/

/-- After a call, the leaves of the tree built are, in order, the tokens its operations consumed (and
those made up by inline recovery), with exactly those consumed while recovering and those made up
marked as errors; the stream stands behind the tokens consumed. -/
theorem C49_leaves (hv : IsView T V) (a : Act) (ha : IsCall a) (p : P I) (n : Nat)
    (hp : Stands V p n) (hb : p.buildTrees = true) :
    ∃ p' root node, Act.run a p = some p' ∧
      Reads p'.heap (fun i => p.heap.length ≤ i ∧ i < p'.heap.length) p.ctx root node ∧
      leaves node = trace T (flatAct a) n ∧ V p'.input (moved T (flatAct a) n) := by
  obtain ⟨node, e, i', h', root, h1, h2, _, h4⟩ := call_ok hv a ha p _ _ hp.ready
  have hl := act_leaves T a ⟨n, p.matchedEof, p.state⟩
  refine ⟨_, root, node, h1, h4 hb, ?_, ?_⟩
  · rw [e] at hl
    simpa [leavesL] using hl.1
  · rw [← hl.2]; exact h2

/-- Nothing is lost, repeated or reordered: the consumed leaves other than EOF are exactly the tokens
between the positions of the stream before and after the call. -/
theorem C49_no_token_lost (hv : IsView T V) (hidx : ∀ n, (T n).index ≠ -1) (a : Act) (ha : IsCall a)
    (p : P I) (n : Nat) (hp : Stands V p n) (hb : p.buildTrees = true) :
    ∃ p' root node m, Act.run a p = some p' ∧
      Reads p'.heap (fun i => p.heap.length ≤ i ∧ i < p'.heap.length) p.ctx root node ∧
      n ≤ m ∧ V p'.input m ∧
      ((leaves node).map (·.1)).filter (fun t => t.index ≠ -1 ∧ t.ttype ≠ TOKEN_EOF) =
        (List.range' n (m - n)).map T := by
  obtain ⟨p', root, node, h1, h2, h3, h4⟩ := C49_leaves hv a ha p n hp hb
  refine ⟨p', root, node, _, h1, h2, moved_le T _ _, h4, ?_⟩
  rw [h3]
  exact trace_range T hidx _ _

/-- For a fresh parser over a `CommonTokenStream` (whose first token is on its channel): the tree
holds the first tokens of that channel, none left out, and the stream stands at the next. -/
theorem C49_channel (src : Source) (c : Int) (hfirst : Visible src c 0) (a : Act) (ha : IsCall a) :
    ∃ p' root node m, Act.run a (P.new (CTS.withChannel src c)) = some p' ∧
      Reads p'.heap (fun i => i < p'.heap.length) none root node ∧
      ((leaves node).map (·.1)).filter (fun t => t.index ≠ -1 ∧ t.ttype ≠ TOKEN_EOF) =
        (List.range m).map (fun k => tok src (visPos src c k)) ∧
      p'.input.index = visPos src c m := by
  obtain ⟨p', root, node, m, h1, h2, h3, h4, h5⟩ := C49_no_token_lost (view_cts src c hfirst)
    (by intro n; simp [seen, tok]) a ha (P.new (CTS.withChannel src c)) 0
    (stands_new (cts_start src c hfirst)) rfl
  refine ⟨p', root, node, m, h1, ?_, ?_, ?_⟩
  · exact reads_frame (fun i hi => hi.2) (fun _ _ => rfl) _ _ _ h2
  · rw [h5, List.range_eq_range']; rfl
  · obtain ⟨⟨len, e, _⟩, _⟩ := h4
    rw [e]
    simp [CTS.index, cst, st]

/-- `visPos` really enumerates the channel: exactly its visible positions, in order. -/
theorem C49_visPos (src : Source) (c : Int) :
    (∀ j, Visible src c j ↔ ∃ n, visPos src c n = j) ∧
    (∀ n, visPos src c n < eofIdx src → visPos src c n < visPos src c (n + 1)) :=
  ⟨fun j => ⟨visPos_complete src c j, fun ⟨n, h⟩ => h ▸ visPos_visible src c n⟩,
   fun n h => visPos_lt src c n h⟩

/-- Every listener hears of every consumed leaf exactly once, in order. -/
theorem C49_listeners (hv : IsView T V) (a : Act) (ha : IsCall a) (p : P I) (n : Nat)
    (hp : Stands V p n) (hd : (p.listeners.map (·.who)).Nodup) (l : PListener)
    (hl : l ∈ p.listeners) :
    ∃ p' new, Act.run a p = some p' ∧ p'.log = p.log ++ new ∧
      evLeaves (heard l.who new) = trace T (real (flatAct a)) n := by
  obtain ⟨node, e, i', h', root, h1, _, _, _⟩ := call_ok hv a ha p _ _ hp.ready
  refine ⟨_, _, h1, rfl, ?_⟩
  rw [heard_dispatch _ _ hd, if_pos (List.mem_map_of_mem hl)]
  exact act_evLeaves T a ⟨n, p.matchedEof, p.state⟩

/-- A tree is built only if asked for; consuming is not affected by that. -/
theorem C49_no_tree (hv : IsView T V) (a : Act) (ha : IsCall a) (p : P I) (n : Nat)
    (hp : Stands V p n) (hb : p.buildTrees = false) :
    ∃ p', Act.run a p = some p' ∧ V p'.input (moved T (flatAct a) n) ∧
      ∀ i, i < p.heap.length → p'.heap[i]? = p.heap[i]? := by
  obtain ⟨node, e, i', h', root, h1, h2, ⟨g1, g2, g3⟩, _⟩ := call_ok hv a ha p _ _ hp.ready
  refine ⟨_, h1, ?_, ?_⟩
  · rw [← (act_leaves T a ⟨n, p.matchedEof, p.state⟩).2]; exact h2
  · intro i hi
    by_cases h : some i = p.ctx
    · have := g3 i p.heap[i] h.symm (by simp [hi])
      simpa [res, hb, hi] using this
    · simpa [res] using g2 i h hi

/-! ## C50: nesting -/

/-- A call of an ordinary (not left-recursive) rule. -/
def Ordinary : Act → Prop
  | .rule .. => True
  | .noAlt .. => True
  | _ => False

/-- A call restores the caller's context, precedences and (ordinary rules) state; it changes no older
context except for appending the new node to the caller's children; the new nodes form a tree with
parent links that nests exactly like the calls; its start token is the token the call started at, and
the caller's state is recorded as invoking state. -/
theorem C50_call (hv : IsView T V) (a : Act) (ha : IsCall a) (p : P I) (n : Nat)
    (hp : Stands V p n) (hb : p.buildTrees = true) :
    ∃ p' root node, Act.run a p = some p' ∧
      p'.ctx = p.ctx ∧ p'.precStack = p.precStack ∧ p'.listeners = p.listeners ∧
      (Ordinary a → p'.state = p.state) ∧
      (∀ i, some i ≠ p.ctx → i < p.heap.length → p'.heap[i]? = p.heap[i]?) ∧
      (∀ c c0, p.ctx = some c → p.heap[c]? = some c0 →
        p'.heap[c]? = some { c0 with children := c0.children ++ [.ctx root] }) ∧
      Reads p'.heap (fun i => p.heap.length ≤ i ∧ i < p'.heap.length) p.ctx root node ∧
      skel node = callsAct a ∧
      (∃ idx label stop kids, node = .rule idx label p.state (T n) stop kids) ∧
      Stands V p' (moved T (flatAct a) n) := by
  obtain ⟨node, e, i', h', root, h1, h2, ⟨g1, g2, g3⟩, h4⟩ := call_ok hv a ha p _ _ hp.ready
  refine ⟨_, root, node, h1, rfl, rfl, rfl, ?_, g2, ?_, h4 hb, ?_, ?_, ?_, ?_⟩
  · intro ho
    cases a <;> simp_all [Ordinary, res, actDen]
  · intro c c0 h5 h6
    have := g3 c c0 h5 h6
    rw [if_pos hb] at this
    exact this
  · have := act_skel T a ⟨n, p.matchedEof, p.state⟩
    rw [e] at this
    simpa [skelL] using this
  · cases a with
    | prim x => exact absurd rfl (ha x)
    | rule => simp only [actDen, List.cons.injEq, and_true] at e; exact ⟨_, _, _, _, e.symm⟩
    | noAlt => simp only [actDen, List.cons.injEq, and_true] at e; exact ⟨_, _, _, _, e.symm⟩
    | recRule => simp only [actDen, List.cons.injEq, and_true] at e; exact ⟨_, _, _, _, e.symm⟩
  · rw [← (act_leaves T a ⟨n, p.matchedEof, p.state⟩).2]; exact h2
  · intro c hc
    have := hp.mem c hc
    simp only [res]
    exact Nat.lt_of_lt_of_le this g1

/-- Every rule node of the tree, however deep, starts with the first token consumed inside it and
stops with the last.  Missing: nodes whose last token is EOF; for those see `C50_stop_eof` and
`C50_false_stop_eof_recursive`. -/
theorem C50_start_stop_partial (hv : IsView T V) (hidx : ∀ n, (T n).index ≠ -1) (a : Act) (ha : IsCall a)
    (p : P I) (n : Nat) (hp : Stands V p n) (hb : p.buildTrees = true) (he : p.matchedEof = false) :
    ∃ p' root node, Act.run a p = some p' ∧
      Reads p'.heap (fun i => p.heap.length ≤ i ∧ i < p'.heap.length) p.ctx root node ∧
      Spanned node := by
  obtain ⟨node, e, i', h', root, h1, _, _, h4⟩ := call_ok hv a ha p _ _ hp.ready
  refine ⟨_, root, node, h1, h4 hb, ?_⟩
  have := act_spanned T hidx hv.eof_stays a ⟨n, p.matchedEof, p.state⟩ (by simp [he])
  rw [e, SpannedL] at this
  exact this.1

/-- An ordinary rule that matched EOF stops with EOF. -/
theorem C50_stop_eof (hv : IsView T V) (idx : Nat) (st : Int) (pre : List Prim) (label : Option Nat)
    (body : Acts) (p : P I) (n : Nat) (hp : Stands V p n) (hb : p.buildTrees = true)
    (he : p.matchedEof = false) :
    ∃ p' root start stop kids, Act.run (.rule idx st pre label body) p = some p' ∧
      Reads p'.heap (fun i => p.heap.length ≤ i ∧ i < p'.heap.length) p.ctx root
        (.rule idx label p.state start stop kids) ∧
      (p'.matchedEof = true → stop.ttype = TOKEN_EOF) := by
  obtain ⟨node, e, i', h', root, h1, _, _, h4⟩ :=
    call_ok hv (.rule idx st pre label body) (by simp) p _ _ hp.ready
  simp only [actDen, List.cons.injEq, and_true] at e
  subst e
  refine ⟨_, root, _, _, _, h1, h4 hb, ?_⟩
  intro hm
  have hb2 := act_eof T (.rule idx st pre label body) ⟨n, p.matchedEof, p.state⟩
  have hp2 := (act_leaves T (.rule idx st pre label body) ⟨n, p.matchedEof, p.state⟩).2
  simp only [actDen] at hb2 hp2
  simp only [res, actDen] at hm
  rw [stopTok, hm, if_pos rfl, hp2]
  rw [hm] at hb2
  exact eofAfter_inv T hv.eof_stays _ _ _ (by simp [he]) hb2.symm

/-! ## C52: events -/

/-- What the listeners hear of a call: a sequence of events (the same for everybody), each delivered
to all listeners — enter and leaf events in the order of registration, exits in reverse. -/
theorem C52_dispatch (hv : IsView T V) (a : Act) (ha : IsCall a) (p : P I) (n : Nat)
    (hp : Stands V p n) :
    ∃ p', Act.run a p = some p' ∧ p'.log = p.log ++
      (actEv T a ⟨n, p.matchedEof, p.state⟩).flatMap (dispatch p.listeners) := by
  obtain ⟨node, e, i', h', root, h1, _, _, _⟩ := call_ok hv a ha p _ _ hp.ready
  exact ⟨_, h1, rfl⟩

/-- Full claim: the events of any call are properly nested.  Missing: calls in which no alternative
could be chosen (`noAlt`), and operator loops left by an error between two operands (`abort`); see
`C52_false_no_alternative` and `C52_false_operator_loop`. -/
theorem C52_balanced_partial (hv : IsView T V) (a : Act) (ha : IsCall a) (hc : cleanAct a) (p : P I)
    (n : Nat) (hp : Stands V p n) :
    ∃ p' evs, Act.run a p = some p' ∧ p'.log = p.log ++ List.flatMap (dispatch p.listeners) evs ∧
      evs = actEv T a ⟨n, p.matchedEof, p.state⟩ ∧ Balanced evs := by
  obtain ⟨node, e, i', h', root, h1, _, _, _⟩ := call_ok hv a ha p _ _ hp.ready
  exact ⟨_, _, h1, rfl, rfl, act_balanced T a _ hc⟩

/-- In a parse without left recursion and recovery, what the listeners hear is exactly what a walk of
the finished tree tells. -/
theorem C52_walk (hv : IsView T V) (a : Act) (ha : IsCall a) (hc : plainAct a) (p : P I) (n : Nat)
    (hp : Stands V p n) (hb : p.buildTrees = true) :
    ∃ p' root node, Act.run a p = some p' ∧
      Reads p'.heap (fun i => p.heap.length ≤ i ∧ i < p'.heap.length) p.ctx root node ∧
      p'.log = p.log ++ List.flatMap (dispatch p.listeners) (walkEv node) := by
  obtain ⟨node, e, i', h', root, h1, _, _, h4⟩ := call_ok hv a ha p _ _ hp.ready
  refine ⟨_, root, node, h1, h4 hb, ?_⟩
  have := act_walk T a ⟨n, p.matchedEof, p.state⟩ hc
  rw [e] at this
  simp only [walkEvL, List.append_nil] at this
  rw [this]
  rfl

/-- Every registered listener hears the same events. -/
theorem C52_everyone (hv : IsView T V) (a : Act) (ha : IsCall a) (p : P I) (n : Nat)
    (hp : Stands V p n) (hd : (p.listeners.map (·.who)).Nodup) :
    ∃ p' evs new, Act.run a p = some p' ∧ p'.log = p.log ++ new ∧
      (∀ l ∈ p.listeners, heard l.who new = evs) ∧
      (∀ w, w ∉ p.listeners.map (·.who) → heard w new = []) := by
  obtain ⟨node, e, i', h', root, h1, _, _, _⟩ := call_ok hv a ha p _ _ hp.ready
  refine ⟨_, actEv T a ⟨n, p.matchedEof, p.state⟩, _, h1, rfl, ?_, ?_⟩
  · intro l hl
    rw [heard_dispatch _ _ hd, if_pos (List.mem_map_of_mem hl)]
  · intro w hw
    rw [heard_dispatch _ _ hd, if_neg hw]

/-- Full claim: removing a listener removes that listener.  Missing: listeners whose boxes share an
address (zero-sized types), see `C52_false_shared_address`. -/
theorem C52_remove_partial (hv : IsView T V) (a : Act) (ha : IsCall a) (p : P I) (n : Nat)
    (hp : Stands V p n) (hd : (p.listeners.map (·.who)).Nodup)
    (haddr : (p.listeners.map (·.addr)).Nodup) (l : PListener) (hl : l ∈ p.listeners) :
    ∃ p1, p.removeParseListener l.addr = some (l, p1) ∧
      ∃ p' new evs, Act.run a p1 = some p' ∧ p'.log = p.log ++ new ∧ heard l.who new = [] ∧
        ∀ l' ∈ p.listeners, l' ≠ l → heard l'.who new = evs := by
  have key : ∀ (ls : List PListener), (ls.map (·.addr)).Nodup → l ∈ ls →
      ls.find? (·.addr = l.addr) = some l ∧
        ls.eraseP (·.addr = l.addr) = ls.filter (· ≠ l) := by
    intro ls
    induction ls with
    | nil => simp
    | cons x xs ih =>
      intro hn hm
      simp only [List.map_cons, List.nodup_cons] at hn
      by_cases hx : x = l
      · subst hx
        refine ⟨by simp, ?_⟩
        rw [List.eraseP_cons_of_pos (by simp), List.filter_cons, if_neg (by simp)]
        symm
        rw [List.filter_eq_self]
        intro y hy
        have : y ≠ x := by
          intro e; subst e; exact hn.1 (List.mem_map_of_mem hy)
        simpa using this
      · have hm' : l ∈ xs := by
          rcases List.mem_cons.1 hm with h | h
          · exact absurd h.symm hx
          · exact h
        have hne : x.addr ≠ l.addr := by
          intro e; exact hn.1 (e ▸ List.mem_map_of_mem hm')
        obtain ⟨a1, a2⟩ := ih hn.2 hm'
        refine ⟨by simp [hne, a1], ?_⟩
        rw [List.eraseP_cons_of_neg (by simpa using hne), a2, List.filter_cons,
          if_pos (by simpa using hx)]
  obtain ⟨k1, k2⟩ := key p.listeners haddr hl
  refine ⟨{ p with listeners := p.listeners.filter (· ≠ l) }, ?_, ?_⟩
  · rw [P.removeParseListener, k1, Option.map_some, k2]
  · have hd' : ((p.listeners.filter (· ≠ l)).map (·.who)).Nodup :=
      List.Nodup.sublist (List.Sublist.map _ List.filter_sublist) hd
    obtain ⟨p', evs, new, h1, h2, h3, h4⟩ := C52_everyone hv a ha
      { p with listeners := p.listeners.filter (· ≠ l) } n ⟨hp.view, hp.mem⟩ hd'
    refine ⟨p', new, evs, h1, h2, h4 _ ?_, ?_⟩
    · intro hm
      rw [List.mem_map] at hm
      obtain ⟨y, hy, e⟩ := hm
      rw [List.mem_filter] at hy
      have : y = l := by
        have hinj : ∀ (ls : List PListener), (ls.map (·.who)).Nodup → y ∈ ls → l ∈ ls → y = l := by
          intro ls
          induction ls with
          | nil => simp
          | cons x xs ih =>
            intro hn hy hl
            simp only [List.map_cons, List.nodup_cons] at hn
            rcases List.mem_cons.1 hy with hy | hy <;> rcases List.mem_cons.1 hl with hl | hl
            · rw [hy, hl]
            · rw [← hy, e] at hn; exact absurd (List.mem_map_of_mem hl) hn.1
            · rw [← hl, ← e] at hn; exact absurd (List.mem_map_of_mem hy) hn.1
            · exact ih hn.2 hy hl
        exact hinj _ hd hy.1 hl
      simp [this] at hy
    · intro l' hl' hne
      exact h3 l' (by simp [List.mem_filter, hl', hne])

/-- The identifier returned by `add_parse_listener` removes that listener again, if no other
listener has its address. -/
theorem C52_add_remove (p : P I) (l : PListener) (h : l.addr ∉ p.listeners.map (·.addr)) :
    (p.addParseListener l).2.removeParseListener (p.addParseListener l).1 = some (l, p) := by
  have h1 : p.listeners.find? (·.addr = l.addr) = none := by
    rw [List.find?_eq_none]
    intro x hx he
    exact h (by simp only [decide_eq_true_eq] at he; rw [← he]; exact List.mem_map_of_mem hx)
  rw [P.removeParseListener, P.addParseListener]
  simp only [List.find?_append, h1]
  rw [List.eraseP_append_right _ (by
    intro x hx he
    exact h (by simp only [decide_eq_true_eq] at he; rw [← he]; exact List.mem_map_of_mem hx))]
  simp

/-! ### Witnesses -/

/-- A token of type `k`. -/
def tk (k : Int) : Tok := { ttype := k }

/-- Two tokens and EOF. -/
def src2 : Source := ⟨[tk 1, tk 2], tk (-1), by decide, by decide⟩

/-- A parser over them with two listeners. -/
def parser2 : P CTS :=
  { P.new (CTS.withChannel src2 0) with listeners := [⟨10, 100⟩, ⟨11, 101⟩] }

/-- What listener 100 heard of a parse. -/
def heard100 (a : Act) : Option (List PEvent) := (Act.run a parser2).map fun p => heard 100 p.log

/-- A rule in which no alternative could be chosen: the exit event has no enter event. -/
theorem C52_false_no_alternative :
    heard100 (.noAlt 7 3 []) = some [.exit 7 none] ∧ ¬ Balanced [PEvent.exit 7 none] := by
  refine ⟨by decide +kernel, ?_⟩
  have key : ∀ l, Balanced l → (l.filter fun | .enter _ _ => true | _ => false).length =
      (l.filter fun | .exit _ _ => true | _ => false).length := by
    intro l h
    induction h with
    | nil => rfl
    | leaf => rfl
    | wrap r l l' evs _ ih => simp_all
    | append a b _ _ iha ihb => simp_all
  intro h
  simpa using key _ h

/-- A left-recursive rule left by an error after an operand: two exits for one context. -/
theorem C52_false_operator_loop :
    heard100 (.recRule 7 3 0 [] none (.cons (.prim .matchTok) .nil) (.abort [])) =
      some [.enter 7 none, .leaf (tok src2 0) false, .exit 7 none, .exit 7 none] := by
  decide +kernel

/-- Two listeners whose boxes have the same address (as boxes of zero-sized types do): removing the
second removes the first. -/
theorem C52_false_shared_address :
    ∃ l1 l2 : PListener, l1 ≠ l2 ∧
      ((((P.new (CTS.withChannel src2 0)).addParseListener l1).2.addParseListener l2).2.removeParseListener
        l2.addr).map (·.1) = some l1 :=
  ⟨⟨5, 1⟩, ⟨5, 2⟩, by decide, by decide +kernel⟩

/-- Tokens made up by inline recovery are in the tree but are not announced to listeners. -/
theorem C49_conjured_silent :
    heard100 (.rule 7 3 [] none (.cons (.prim (.conjure { ttype := 1, index := -1 })) .nil)) =
      some [.enter 7 none, .exit 7 none] := by
  decide +kernel

/-- A left-recursive rule that matched EOF does *not* stop with EOF. -/
theorem C50_false_stop_eof_recursive :
    ((Act.run (.recRule 7 3 0 [] none (.cons (.prim .matchTok) (.cons (.prim .matchTok)
        (.cons (.prim .matchTok) .nil))) .done) parser2).bind fun p => p.heap[0]?.map (·.stop)) =
      some (tok src2 1) := by
  decide +kernel

/-! ### Non-trivial cases -/

theorem parser2_stands : Stands (CtsAt src2 0) parser2 0 :=
  ⟨cts_start src2 0 (by decide), by simp [parser2, P.new]⟩

/-- Rule 1 calls a left-recursive rule 2 with one operator and then matches EOF. -/
def prog : Act :=
  .rule 1 10 [.setState 11] none
    (.cons (.recRule 2 20 0 [] none (.cons (.prim .matchTok) .nil)
      (.iter [] (some 5) (.cons (.prim .matchTok) .nil) .done))
    (.cons (.prim .matchTok) .nil))

example : IsCall prog ∧ cleanAct prog ∧ Stands (CtsAt src2 0) parser2 0 ∧
    parser2.buildTrees = true ∧ (parser2.listeners.map (·.who)).Nodup ∧
    (parser2.listeners.map (·.addr)).Nodup :=
  ⟨by simp [IsCall, prog], by simp [prog, cleanAct, cleanActs, cleanIters], parser2_stands, rfl,
   by decide, by decide⟩

example : trace (seen src2 0) (flatAct prog) 0 =
    [(tok src2 0, false), (tok src2 1, false), (tok src2 2, false)] := by decide +kernel

example : heard100 prog = some [.enter 1 none, .enter 2 none, .leaf (tok src2 0) false,
    .exit 2 none, .enter 2 (some 5), .leaf (tok src2 1) false, .exit 2 (some 5),
    .leaf (tok src2 2) false, .exit 1 none] := by decide +kernel

example : callsAct prog = [.mk 1 none [.mk 2 (some 5) [.mk 2 none []]]] := rfl

example : Ordinary prog := trivial

example : plainAct (.rule 1 10 [.setState 11] (some 3) (.cons (.prim .matchTok)
    (.cons (.rule 2 12 [] none (.cons (.prim .matchTok) .nil)) .nil))) := by
  simp [plainAct, plainActs, plainPrim, plainPre]

end Antlr.ParserProps

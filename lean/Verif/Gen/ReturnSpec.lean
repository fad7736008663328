import Verif.Gen.PathSpec

/-!
# Rule functions that come to an end

`Settles t h b c`: if the next token is of type `t`, the code `c` gets to its end, to a token it reads, or to
an error, with at most `h` calls nested in one another.  If `b`, it cannot get to its end without reading.
(Whatever is read, the code that remains is looked at anew with the token that is next then.)  With the bail
strategy an error is the end of the parse; without it the rule in which it occurs gets to its end all the same.
-/

namespace Antlr.GenSpec
open Antlr Gen

/-- What a decision answers if the next token is of type `t`; `pr` says what predictions answer. -/
def Answers (pr : Nat → Int → Int → Prop) : Choice → Int → Int → Prop
  | .look sets other, t, k => look sets other t = some k
  | .predict d, t, k => pr d t k

/-- The pieces of the code of rule `r`. -/
inductive Part (rules : List RuleFn) (r : Nat) : Code → Prop
  | alt {start sel alts a} : rules[r]? = some (.plain start sel alts) → a ∈ alts → Part rules r a.code
  | prim {start sel prims entry back ch opSel ops a} :
      rules[r]? = some (.recursive start sel prims entry back ch opSel ops) → a ∈ prims → Part rules r a.code
  | op {start sel prims entry back ch opSel ops o} :
      rules[r]? = some (.recursive start sel prims entry back ch opSel ops) → o ∈ ops → Part rules r o.code
  | seqL {x y} : Part rules r (.seq x y) → Part rules r x
  | seqR {x y} : Part rules r (.seq x y) → Part rules r y
  | block {st ch alts a} : Part rules r (.block st ch alts) → a ∈ alts → Part rules r a
  | opt {st ch off alts a} : Part rules r (.opt st ch off alts) → a ∈ alts → Part rules r a
  | star {st back ch exit bodyAlt body} : Part rules r (.star st back ch exit bodyAlt body) → Part rules r body
  | plus {st back ch exit bodyAlt body} : Part rules r (.plus st back ch exit bodyAlt body) → Part rules r body

/-- The alternative `a` may be the one to take if the next token is of type `t`. -/
def Taken {α : Type} (pr : Nat → Int → Int → Prop) (t : Int) (sel : Option (Int × Choice)) (alts : List α) (a : α) : Prop :=
  match sel with
  | none => alts.head? = some a
  | some (_, ch) => ∃ k, Answers pr ch t k ∧ pick alts k = some a

/-- There may be no alternative to take. -/
def Blank {α : Type} (pr : Nat → Int → Int → Prop) (t : Int) (sel : Option (Int × Choice)) (alts : List α) : Prop :=
  match sel with
  | none => alts = []
  | some (_, ch) => ∃ k, Answers pr ch t k ∧ pick alts k = none

inductive Settles (rules : List RuleFn) (pr : Nat → Int → Int → Prop) (bail : Bool) (t : Int) : Nat → Bool → Code → Prop
  | nop {h} : Settles rules pr bail t h false .nop
  /-- Less can be said. -/
  | less {h c} : Settles rules pr bail t h true c → Settles rules pr bail t h false c
  | guard {h st k msg} : Settles rules pr bail t h false (.guard st k msg)
  | seq {h b b' x y} : Settles rules pr bail t h b x → (b = false → Settles rules pr bail t h b' y) →
      Settles rules pr bail t h (b || b') (.seq x y)
  | tok {h st ty} : Settles rules pr bail t h (decide (t = ty ∧ t ≠ TOKEN_EOF)) (.tok st ty)
  | set {h st types invert} :
      Settles rules pr bail t h (decide (inSet types invert t = true ∧ t ≠ TOKEN_EOF)) (.set st types invert)
  | any {h st} : Settles rules pr bail t h (decide (0 < t)) (.any st)
  /-- The bail strategy does not get past the wrong token. -/
  | noTok {h st ty} : bail = true → t ≠ ty → Settles rules pr bail t h true (.tok st ty)
  | noSet {h st types invert} : bail = true → inSet types invert t = false →
      Settles rules pr bail t h true (.set st types invert)
  | noAny {h st} : bail = true → t ≤ 0 → Settles rules pr bail t h true (.any st)
  /-- A call of a rule with one alternative.  An error in the rule is handled before it returns; at EOF that
  may well be without reading anything. -/
  | one {h b st q start a more} {r : Nat} : rules[r]? = some (.plain start none (a :: more)) →
      Settles rules pr bail t h b a.code → Settles rules pr bail t (h + 1) (decide (b = true ∧ (bail = true ∨ t ≠ TOKEN_EOF))) (.call st r q)
  | many {h b st q start s ch alts} {r : Nat} : rules[r]? = some (.plain start (some (s, ch)) alts) →
      (∀ k a, Answers pr ch t k → pick alts k = some a → Settles rules pr bail t h b a.code) →
      (b = true → ∀ k, Answers pr ch t k → pick alts k ≠ none) →
      Settles rules pr bail t (h + 1) (decide (b = true ∧ (bail = true ∨ t ≠ TOKEN_EOF))) (.call st r q)
  /-- A call of a left-recursive rule, with the bail strategy: a primary alternative reads something.  (What
  follows is the loop over the operators, see `Prompt`.) -/
  | recursive {h st q start sel prims entry back ch opSel ops} {r : Nat} : bail = true →
      rules[r]? = some (.recursive start sel prims entry back ch opSel ops) →
      (∀ a, Taken pr t sel prims a → Settles rules pr bail t h true a.code) → ¬ Blank pr t sel prims →
      Settles rules pr bail t (h + 1) true (.call st r q)
  | block {h b st ch alts} :
      (∀ k a, Answers pr ch t k → pick alts k = some a → Settles rules pr bail t h b a) →
      (b = true → ∀ k, Answers pr ch t k → pick alts k ≠ none) → Settles rules pr bail t h b (.block st ch alts)
  | opt {h b st ch off alts} :
      (∀ k a, Answers pr ch t k → pick alts (k - off) = some a → Settles rules pr bail t h b a) →
      (b = true → ∀ k, Answers pr ch t k → pick alts (k - off) ≠ none) → Settles rules pr bail t h b (.opt st ch off alts)
  /-- The answer is to leave or to enter the body, and the body cannot end without reading. -/
  | star {h b st back ch exit bodyAlt body} :
      (∀ k, Answers pr ch t k → k ≠ exit → k ≠ 0 → k = bodyAlt) →
      (∀ k, Answers pr ch t k → k ≠ exit → k ≠ 0 → Settles rules pr bail t h true body) →
      (b = true → ∀ k, Answers pr ch t k → k ≠ exit ∧ k ≠ 0) →
      Settles rules pr bail t h b (.star st back ch exit bodyAlt body)
  /-- Nor can the body, after the first time. -/
  | plus {h b st back ch exit bodyAlt body} : Settles rules pr bail t h b body →
      (∀ k, Answers pr ch t k → k ≠ exit → k ≠ 0 → k = bodyAlt → Settles rules pr bail t h true body) →
      Settles rules pr bail t h b (.plus st back ch exit bodyAlt body)

/-- Whatever token comes next, every piece of the code settles.  Left-recursive rules are for the bail strategy
only; the answer at their loop is to leave or to go on, and then an operator reads something. -/
structure Prompt (rules : List RuleFn) (pr : Nat → Int → Int → Prop) (bail : Bool) (Ok : Int → Prop) (D : Nat) : Prop where
  piece : ∀ r c, Part rules r c → ∀ t, Ok t → ∃ b, Settles rules pr bail t D b c
  loop : ∀ (r : Nat) start sel prims entry back ch opSel ops, rules[r]? = some (.recursive start sel prims entry back ch opSel ops) →
    bail = true ∧ ∀ t, Ok t → (∀ k, Answers pr ch t k → k = 0 ∨ k = 1 ∨ k = 2) ∧
      (Answers pr ch t 1 → (∀ o, Taken pr t opSel ops o → Settles rules pr bail t D true o.code) ∧ ¬ Blank pr t opSel ops)

/-- A state of the automaton at which `sync` can be called. -/
def Syncs (atn : ATN) (st : Int) : Prop :=
  ∃ (a : Nat) (dec : ATNState), st = a ∧ atn.states[a]? = some dec ∧ ES.syncKind dec.stateType ≠ none

/-- A state of the automaton with an edge. -/
def HasEdge (atn : ATN) (st : Int) : Prop :=
  ∃ (a : Nat) (s : ATNState) (tr : Trans) (ts : List Trans),
    st = a ∧ atn.states[a]? = some s ∧ s.transitions = tr :: ts

/-- A state of rule `r` in the automaton that calls rule `r'`. -/
def CallsRule (atn : ATN) (st : Int) (r r' : Nat) : Prop :=
  ∃ (a : Nat) (s : ATNState) (t f : Nat) (p : Int) (ts : List Trans) (tst : ATNState),
    st = a ∧ atn.states[a]? = some s ∧ s.transitions = .rule t f r' p :: ts ∧ s.ruleIndex = r ∧
    atn.states[t]? = some tst ∧ tst.ruleIndex = r'

/-- The state numbers in a piece of code of rule `r` are of the right kind; the decisions are ones of `Ch`. -/
def Seated (atn : ATN) (Ch : Nat → Choice → Prop) (rules r : Nat) : Code → Prop
  | .nop => True
  | .seq .. => True
  | .tok st _ => HasEdge atn st
  | .set st .. => HasEdge atn st
  | .any st => HasEdge atn st
  | .guard st .. => HasEdge atn st
  | .call st r' _ => CallsRule atn st r r' ∧ r' < rules
  | .block st ch _ => Syncs atn st ∧ Ch r ch
  | .opt st ch .. => Syncs atn st ∧ Ch r ch
  | .star st back ch .. => Syncs atn st ∧ Syncs atn back ∧ Ch r ch
  | .plus st back ch .. => Syncs atn st ∧ Syncs atn back ∧ Ch r ch

/-- The same for the decision between the alternatives of a rule. -/
def SeatedSel (atn : ATN) (Ch : Nat → Choice → Prop) (r : Nat) (sel : Option (Int × Choice)) : Prop :=
  ∀ st ch, sel = some (st, ch) → Syncs atn st ∧ Ch r ch

/-- The same for a rule function. -/
def SeatedRule (atn : ATN) (Ch : Nat → Choice → Prop) (r : Nat) : RuleFn → Prop
  | .plain start sel alts => (∃ a : Nat, start = a ∧ a < atn.states.length) ∧ alts ≠ [] ∧ SeatedSel atn Ch r sel
  | .recursive start sel prims entry back ch opSel ops => (∃ a : Nat, start = a ∧ a < atn.states.length) ∧ prims ≠ [] ∧
      SeatedSel atn Ch r sel ∧ Syncs atn entry ∧ Syncs atn back ∧ Ch r ch ∧ SeatedSel atn Ch r opSel ∧
      ∀ o ∈ ops, HasEdge atn o.predState

/-- The code fits the automaton. -/
structure Fits (atn : ATN) (Ch : Nat → Choice → Prop) (rules : List RuleFn) : Prop where
  rule : ∀ (r : Nat) (fn : RuleFn), rules[r]? = some fn → SeatedRule atn Ch r fn
  piece : ∀ r c, Part rules r c → Seated atn Ch rules.length r c

/-- Only real token types and EOF are on the edges. -/
def RealLabels (atn : ATN) : Prop :=
  ∀ (s : Nat) (st : ATNState) (tr : Trans), atn.states[s]? = some st → tr ∈ st.transitions →
    ∀ x, LL1Spec.Matches atn.maxTokenType tr x → TOKEN_EOF ≤ x

/-- A test of the next token. -/
def IsLook (_ : Nat) (ch : Choice) : Prop := ∃ sets other, ch = .look sets other

end Antlr.GenSpec

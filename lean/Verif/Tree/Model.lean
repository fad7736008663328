import Verif.Token.Model
import Verif.ATN.Model

/-!
# Model of finished parse trees: `src/tree.rs`, `src/trees.rs`, `src/utils.rs` and the tree accessors
of `src/parser_rule_context.rs`

A tree is a value; the reference-counted nodes it is built from are modelled in `Verif.Parser`.
Generated contexts are the one kind of rule node: their `enter`/`exit`/`accept` (generated code, e.g.
tests/gen/csvparser.rs) call the listener or visitor back with the node.
-/

namespace Antlr

/-- A node: a rule context (rule index, alternative number, children; parser_rule_context.rs) or a
leaf (`LeafNode`, src/tree.rs:127-131; `TerminalNode` 202 / `ErrorNode` 226). -/
inductive PTree where
  | rule (index : Nat) (alt : Int) (children : List PTree)
  | leaf (tok : Tok) (isError : Bool)
deriving Repr

namespace PTree

/-- `get_child_count` and `get_child`, src/parser_rule_context.rs:406-412, src/tree.rs:36-41 -/
def children : PTree → List PTree
  | rule _ _ cs => cs
  | leaf _ _ => []

/-- `get_children`, src/tree.rs:43-60: an index counts up while it is below `get_child_count`. -/
def iterChildren (cs : List PTree) (i : Nat) : List PTree :=
  if h : i < cs.length then cs[i] :: iterChildren cs (i + 1) else []
termination_by cs.length - i

/-- The callbacks of a listener with state `σ`, src/tree.rs:398-407 and the generated `enter`/`exit`
(`Listenable`, src/tree.rs:411-416) of contexts, 204-214 and 228-238 of leaves. -/
structure Listener (σ : Type) where
  enterRule : PTree → σ → σ
  exitRule : PTree → σ → σ
  visitTerminal : Tok → σ → σ
  visitErrorNode : Tok → σ → σ

/-- `Listenable::enter` -/
def enter {σ} (l : Listener σ) (t : PTree) (s : σ) : σ :=
  match t with
  | rule .. => l.enterRule t s
  | leaf tok false => l.visitTerminal tok s
  | leaf tok true => l.visitErrorNode tok s

/-- `Listenable::exit` -/
def exit {σ} (l : Listener σ) (t : PTree) (s : σ) : σ :=
  match t with
  | rule .. => l.exitRule t s
  | leaf .. => s

mutual
/-- `walk_inner`, src/tree.rs:455-463 -/
def walk {σ} (l : Listener σ) (t : PTree) (s : σ) : σ :=
  match t with
  | rule i a cs => exit l (rule i a cs) (walkList l cs (enter l (rule i a cs) s))
  | leaf tok e => exit l (leaf tok e) (enter l (leaf tok e) s)
/-- its loop over the children -/
def walkList {σ} (l : Listener σ) (cs : List PTree) (s : σ) : σ :=
  match cs with
  | [] => s
  | c :: cs => walkList l cs (walk l c s)
end

mutual
/-- `get_text`, src/parser_rule_context.rs:443-452 and src/tree.rs:169-171 -/
def getText : PTree → List Char
  | rule _ _ cs => getTextList cs []
  | leaf tok _ => tok.getText
/-- its loop -/
def getTextList (cs : List PTree) (result : List Char) : List Char :=
  match cs with
  | [] => result
  | c :: cs => getTextList cs (result ++ c.getText)
end

/-- `escape_whitespaces`, src/utils.rs:5-16 -/
def escapeWhitespaces (data : List Char) (escapeSpaces : Bool) : List Char :=
  data.flatMap fun ch =>
    if ch = ' ' ∧ escapeSpaces = true then ['·']
    else if ch = '\t' then ['\\', 't']
    else if ch = '\n' then ['\\', 'n']
    else if ch = '\r' then ['\\', 'r']
    else [ch]

/-- `get_node_text`, src/rule_context.rs:133-141 and src/tree.rs:144-146; `none` = index panic -/
def nodeText (ruleNames : List (List Char)) : PTree → Option (List Char)
  | rule i a _ => (ruleNames[i]?).map fun n =>
      if a ≠ INVALID_ALT then n ++ [':'] ++ (toString a).toList else n
  | leaf tok _ => some tok.getText

mutual
/-- `string_tree`, src/trees.rs:12-31 -/
def stringTree (ruleNames : List (List Char)) : PTree → Option (List Char)
  | rule i a cs =>
    ((rule i a cs).nodeText ruleNames).bind fun txt =>
      let s := escapeWhitespaces txt false
      if cs.isEmpty then some s
      else (stringTreeList ruleNames cs (['('] ++ s)).map fun r => r ++ [')']
  | leaf tok e => ((leaf tok e).nodeText ruleNames).map fun txt => escapeWhitespaces txt false
/-- the fold over the children -/
def stringTreeList (ruleNames : List (List Char)) (cs : List PTree) (acc : List Char) :
    Option (List Char) :=
  match cs with
  | [] => some acc
  | c :: cs => (stringTree ruleNames c).bind fun text => stringTreeList ruleNames cs (acc ++ [' '] ++ text)
end

/-- `downcast_rc::<TerminalNode>()` -/
def asTerminal : PTree → Option Tok
  | leaf tok false => some tok
  | _ => none

/-- `get_tokens`, src/parser_rule_context.rs:108-116 -/
def getTokens (t : PTree) (ttype : Int) : List Tok :=
  (t.children.filterMap asTerminal).filter fun tok => tok.ttype == ttype

/-- `get_token`, src/parser_rule_context.rs:100-106 -/
def getToken (t : PTree) (ttype : Int) (pos : Nat) : Option Tok :=
  ((t.children.filterMap asTerminal).filter fun tok => tok.ttype == ttype)[pos]?

/-- The callbacks of a `ParseTreeVisitorCompat` with state `σ` and result `R`, src/tree.rs:247-305.
`onRule` is an override of a generated `visit_X`; `none` = its default, `visit_children`. -/
structure Visitor (σ R : Type) where
  default : R
  visitTerminal : Tok → σ → R × σ
  visitErrorNode : Tok → σ → R × σ
  aggregate : σ → R → R → R
  shouldVisitNext : σ → PTree → R → Bool
  onRule : PTree → Option (σ → R × σ)

mutual
/-- `visit_node` → `accept` → the blanket `ParseTreeVisitor` implementation, src/tree.rs:316-333: the
result goes to `temp_result`.  The state is the visitor's and the temporary. -/
def visitNode {σ R} (v : Visitor σ R) (t : PTree) (s : σ × R) : σ × R :=
  match t with
  | rule i a cs =>
    match v.onRule (rule i a cs) with
    | some f => let r := f s.1; (r.2, r.1)
    | none => let r := visitChildren v cs v.default s; (r.2.1, r.1)
  | leaf tok false => let r := v.visitTerminal tok s.1; (r.2, r.1)
  | leaf tok true => let r := v.visitErrorNode tok s.1; (r.2, r.1)
/-- the loop of `visit_children`, src/tree.rs:278-292; `visit` (262-265) takes the temporary and
leaves the default there. -/
def visitChildren {σ R} (v : Visitor σ R) (cs : List PTree) (result : R) (s : σ × R) : R × σ × R :=
  match cs with
  | [] => (result, s)
  | c :: cs =>
    if v.shouldVisitNext s.1 c result then
      let s' := visitNode v c s
      visitChildren v cs (v.aggregate s'.1 result s'.2) (s'.1, v.default)
    else (result, s)
end

/-- `visit`, src/tree.rs:262-265 -/
def visit {σ R} (v : Visitor σ R) (t : PTree) (s : σ × R) : R × σ × R :=
  let s' := visitNode v t s
  (s'.2, s'.1, v.default)

end PTree
end Antlr

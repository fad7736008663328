import Verif.InputStream.Model
import Verif.TokenStream.Model

/-!
# Model of `src/token_factory.rs` and the token accessors of `src/token.rs`
-/

namespace Antlr

/-- `"<EOF>"` -/
def eofText : List Char := ['<', 'E', 'O', 'F', '>']

/-- The text chosen by `create`, src/token_factory.rs:115-125; `none` = panic in `get_text`. -/
def createText (source : Option (InputStream Str)) (text : Option (List Char)) (start stop : Int) :
    Option (List Char) :=
  match text, source with
  | some t, _ => some t
  | none, some x =>
    if stop ≥ x.size ∨ start ≥ x.size then some eofText
    else (x.getText start stop).map (·.chars)
  | none, none => some []

/-- `CommonTokenFactory::create`, src/token_factory.rs:101-137 (and, with the same text rule,
`OwningTokenFactory::create` 162-198) -/
def createToken (source : Option (InputStream Str)) (ttype : Int) (text : Option (List Char))
    (channel start stop line column : Int) : Option Tok :=
  (createText source text start stop).map fun text =>
    { ttype, channel, start, stop, line, column, index := -1, text }

/-- `CommonTokenFactory::create_invalid`, src/token_factory.rs:32-42, 139-141 -/
def createInvalid : Tok :=
  { ttype := TOKEN_INVALID_TYPE, channel := 0, start := -1, stop := -1, line := -1, column := -1,
    index := -1, text := "<invalid>".toList }

/-- `GenericToken::get_text`, src/token.rs:186-192 -/
def Tok.getText (t : Tok) : List Char := if t.ttype = TOKEN_EOF then eofText else t.text

/-- `GenericToken::set_token_index`, src/token.rs:202-204 -/
def Tok.setTokenIndex (t : Tok) (v : Int) : Tok := { t with index := v }

/-- `GenericToken::to_owned`, src/token.rs:206-218 (the read-only flag is not modelled) -/
def Tok.toOwned (t : Tok) : Tok :=
  { ttype := t.ttype, channel := t.channel, start := t.start, stop := t.stop, index := t.index,
    line := t.line, column := t.column, text := t.text }

/-- `str::replace` of one character by two. -/
def replaceChar (c : Char) (r : List Char) (s : List Char) : List Char :=
  s.flatMap fun x => if x = c then r else [x]

/-- `Display` for `GenericToken`, src/token.rs:124-151 -/
def Tok.display (t : Tok) : List Char :=
  let txt := if t.ttype = TOKEN_EOF then eofText else t.text
  let txt := replaceChar '\n' ['\\', 'n'] txt
  let txt := replaceChar '\r' ['\\', 'r'] txt
  let txt := replaceChar '\t' ['\\', 't'] txt
  ['[', '@'] ++ (toString t.index).toList ++ [','] ++ (toString t.start).toList ++
    [':'] ++ (toString t.stop).toList ++ ['=', '\''] ++ txt ++ ['\'', ',', '<'] ++
    (toString t.ttype).toList ++ ['>'] ++
    (if t.channel > 0 then (toString t.channel).toList else []) ++ [','] ++
    (toString t.line).toList ++ [':'] ++ (toString t.column).toList ++ [']']

end Antlr

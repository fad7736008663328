import Verif.Lexer.Spec
import Verif.Token.Model

/-!
# Texts of characters, comments, CDATA sections and declarations

What such a text is and which tokens it should give, independent of the lexer.
-/

namespace Antlr.XmlDoc
open Antlr LexSpec

/-- A piece of the text. -/
inductive Item where
  | comment (body : List Int)
  | cdata (body : List Int)
  | decl (body : List Int)
  | run (body : List Int)

/-- `<!--`, `<![CDATA[` or `<!`; character data has no opening word -/
def Item.opening : Item → List Int
  | .comment _ => [60, 33, 45, 45]
  | .cdata _ => [60, 33, 91, 67, 68, 65, 84, 65, 91]
  | .decl _ => [60, 33]
  | .run _ => []

def Item.body : Item → List Int
  | .comment b | .cdata b | .decl b | .run b => b

/-- `-->`, `]]>` or `>` -/
def Item.closing : Item → List Int
  | .comment _ => [45, 45, 62]
  | .cdata _ => [93, 93, 62]
  | .decl _ => [62]
  | .run _ => []

def Item.text (x : Item) : List Int := x.opening ++ x.body ++ x.closing

def Item.isRun : Item → Bool
  | .run _ => true
  | _ => false

/-- The type of its token: `COMMENT`, `CDATA`, `SEA_WS` for a space, a tab or a line end, `TEXT` for other character data;
declarations have none. -/
def Item.type : Item → Option Int
  | .comment _ => some 1
  | .cdata _ => some 2
  | .decl _ => none
  | .run b => some (if b ∈ [[32], [9], [10], [13, 10]] then 6 else 9)

/-- The item ends where it first could, consists of characters (not U+0000, not U+10FFFF) and, if it is a declaration,
does not look like a comment or CDATA section.  Character data has neither `&` nor `<`. -/
structure Item.Proper (x : Item) : Prop where
  chars : x.isRun = false → ∀ c ∈ x.body, 0 < c ∧ c < 0x10FFFF
  first : x.isRun = false → ∀ q, x.opening.length ≤ q → x.closing <+: x.text.drop q → x.text.length ≤ q + x.closing.length
  plain : x.type = none → ¬ (Item.comment []).opening <+: x.text ∧ ¬ (Item.cdata []).opening <+: x.text
  run : x.isRun = true → x.body ≠ [] ∧ ∀ c ∈ x.body, c ≠ 38 ∧ c ≠ 60 ∧ c ≤ 0x10FFFF

/-- Character data is not followed by more of it. -/
def Separate : List Item → Prop
  | x :: y :: xs => (x.isRun = false ∨ y.isRun = false) ∧ Separate (y :: xs)
  | _ => True

variable {D : Type}

/-- The tokens of the items from character `n` on. -/
def tokens (cs : List Int) (ix : Nat → Int) (sl : Nat → Nat → D) (toChars : D → List Char) : Nat → List Item → List Tok
  | _, [] => []
  | n, x :: xs =>
    let m := n + x.text.length
    (x.type.toList.map fun tt =>
      { ttype := tt, channel := 0, start := ix n, stop := ix m - 1, line := lineOf cs n, column := colOf cs n, index := -1,
        text := toChars (sl n m) }) ++ tokens cs ix sl toChars m xs

end Antlr.XmlDoc

import Verif.Lexer.Model

/-!
# What a lexer should do to its input

Positions are counted in characters, `0 … cs.length`; `ix n` is the stream index of the `n`-th
character (the byte offset for `str`).
-/

namespace Antlr.LexSpec
open Antlr Lexer

variable {D : Type} [InputData D]

/-- The data `d` reads as the characters `cs`, the `n`-th at index `ix n`; `sl a b` is the part of the
data from character `a` to before character `b`. -/
structure Reads (d : D) (cs : List Int) (ix : Nat → Int) (sl : Nat → Nat → D) : Prop where
  first : ix 0 = 0
  mono : ∀ n, n < cs.length → ix n < ix (n + 1)
  chars : ∀ c ∈ cs, 0 ≤ c
  size : (InputData.len d : Int) = ix cs.length
  la : ∀ n, n ≤ cs.length → (InputStream.mk d (ix n)).la 1 = some ((cs[n]?).getD EOF)
  consume : ∀ n, n < cs.length → (InputStream.mk d (ix n)).consume = some ⟨d, ix (n + 1)⟩
  last : (InputStream.mk d (ix cs.length)).consume = none
  text : ∀ a b i, a ≤ b → b ≤ cs.length → (InputStream.mk d i).getText (ix a) (ix b - 1) = some (sl a b)
  textThrough : ∀ a n i, a ≤ n → n ≤ cs.length →
    (InputStream.mk d i).getText (ix a) (ix n) = some (sl a (min (n + 1) cs.length))

/-- The line of position `n`, counted from 1: one more than the number of newlines before it. -/
def lineOf (cs : List Int) (n : Nat) : Int := 1 + ((cs.take n).count 10 : Nat)

/-- The column of position `n`: the number of characters since the last newline. -/
def colOf (cs : List Int) (n : Nat) : Int :=
  (((cs.take n).reverse.takeWhile (fun c => c ≠ 10)).length : Nat)

/-- The input at position `n` with the right line and column. -/
def at_ (d : D) (cs : List Int) (ix : Nat → Int) (n : Nat) : Cursor D :=
  ⟨⟨d, ix n⟩, lineOf cs n, colOf cs n⟩

/-- The parts of the lexer's state that user code has no business with: what it may change is type,
channel, text, modes. -/
structure Untouched (L L' : Lex D) : Prop where
  cur : L'.cur = L.cur
  startIndex : L'.startIndex = L.startIndex
  startLine : L'.startLine = L.startLine
  startCol : L'.startCol = L.startCol
  hitEof : L'.hitEof = L.hitEof
  token : L'.token = L.token
  reports : L'.reports = L.reports
  pieces : L'.pieces = L.pieces

/-- The actions of the grammar only change type, channel, text and modes, and `before_emit` only
channel and text. -/
structure Tame (env : Env D) : Prop where
  action : ∀ r a L, Untouched L (env.action r a L)
  before : ∀ L, Untouched L (env.beforeEmit L)
  beforeType : ∀ L, (env.beforeEmit L).ttype = L.ttype

/-- Neither actions nor `before_emit` set the text of the token. -/
structure KeepsText (env : Env D) : Prop where
  action : ∀ r a L, (env.action r a L).text = L.text
  before : ∀ L, (env.beforeEmit L).text = L.text

/-- The pieces lie end to end from index `i` to index `j`. -/
def Tiling : Int → List Piece → Int → Prop
  | i, [], j => i = j
  | i, p :: ps, j => p.start = i ∧ p.start ≤ p.stop ∧ Tiling p.stop ps j

/-- The tokens made of a sequence of pieces, as (start, end, type): skipped pieces (and with them
what MORE had collected) are dropped, MORE pieces are joined to what follows.  `s` is the start of
the token being collected, if any. -/
def tokensOf : Option Int → List Piece → List (Int × Int × Int)
  | _, [] => []
  | s, p :: ps =>
    if p.kind = LEXER_SKIP then tokensOf none ps
    else if p.kind = LEXER_MORE then tokensOf (some (s.getD p.start)) ps
    else (s.getD p.start, p.stop, p.kind) :: tokensOf none ps

/-- The dropped input of a sequence of pieces, as (start, end): a failed piece together with what MORE
had collected before it. -/
def errorsOf : Option Int → List Piece → List (Int × Int)
  | _, [] => []
  | s, p :: ps =>
    if p.failed then (s.getD p.start, p.stop) :: errorsOf none ps
    else if p.kind = LEXER_MORE then errorsOf (some (s.getD p.start)) ps
    else errorsOf none ps

/-- The report describes the dropped input `e`: its place and its text. -/
def Describes (cs : List Int) (ix : Nat → Int) (sl : Nat → Nat → D) (r : Report D) (e : Int × Int) :
    Prop :=
  ∃ a m, a ≤ m ∧ m ≤ cs.length ∧ e = (ix a, ix m) ∧ r = ⟨lineOf cs a, colOf cs a, sl a m⟩

/-- `k` calls of `next_token`. -/
def nextTokens (env : Env D) (fc fe fn : Nat) : Nat → Lex D → List DFA →
    Option (List Tok × Lex D × List DFA)
  | 0, L, dfas => some ([], L, dfas)
  | k + 1, L, dfas =>
    (nextToken env fc fe fn L dfas).bind fun r =>
      (nextTokens env fc fe fn k r.2.1 r.2.2).map fun q => (r.1 :: q.1, q.2)

/-- The EOF token at the end of the input. -/
def eofToken (cs : List Int) (ix : Nat → Int) : Tok :=
  { ttype := EOF, channel := 0, start := ix cs.length, stop := ix cs.length - 1,
    line := lineOf cs cs.length, column := colOf cs cs.length, index := -1, text := [] }

/-! ## Actions -/

/-- Where an action belongs: an action inside a rule has an offset from the token's start, all others
belong to the token's end. -/
def actionPos (start stop : Int) : LexerAction → Int
  | .indexedCustom o _ => start + o
  | _ => stop

/-- Perform the actions one after the other, each with the input at its place, and return to the
token's end. -/
def performAll (action : Int → Int → Lex D → Lex D) (start stop : Int) :
    List LexerAction → Lex D → Lex D
  | [], L => L.seek stop
  | a :: as, L =>
    performAll action start stop as (executeAction action a (L.seek (actionPos start stop a)))

end Antlr.LexSpec

/-!
# Model of `src/token_stream.rs` and `src/common_token_stream.rs`

`isize` is `Int`; an outer `none` is a panic (debug build: arithmetic overflow panics too).
-/

namespace Antlr

/-- The fields of a token, src/token.rs:92-103 (`GenericToken`).  `index` is the
`token_index` cell written by the stream. -/
structure Tok where
  ttype : Int
  channel : Int := 0
  start : Int := 0
  stop : Int := 0
  line : Int := 1
  column : Int := 0
  index : Int := -1
  text : List Char := []
deriving DecidableEq, Repr

/-- `TOKEN_EOF`, src/token.rs:23 -/
def TOKEN_EOF : Int := -1
/-- `TOKEN_INVALID_TYPE`, src/token.rs:16 -/
def TOKEN_INVALID_TYPE : Int := 0

/-- A `TokenSource` (src/token_source.rs:13-44): `next_token` delivers finitely many tokens and
then EOF for ever. -/
structure Source where
  pre : List Tok
  eof : Tok
  pre_ne : ∀ t ∈ pre, t.ttype ≠ TOKEN_EOF
  eof_eq : eof.ttype = TOKEN_EOF
deriving DecidableEq

/-- The answer of the `n`-th call of `next_token` (counted from 0). -/
def Source.next (src : Source) (n : Nat) : Tok := src.pre[n]?.getD src.eof

/-- `UnbufferedTokenStream`, src/token_stream.rs:73-80.  The source is represented by its answers
and the number `fetched` of `next_token` calls made so far. -/
structure TS where
  src : Source
  fetched : Nat
  tokens : List Tok
  cur : Int
  markers : Int
  p : Int
deriving DecidableEq

namespace TS

/-- `new_unbuffered`, src/token_stream.rs:113-121 -/
def newUnbuffered (src : Source) : TS := ⟨src, 0, [], 0, 0, 0⟩

/-- `mark`, src/token_stream.rs:231-234 -/
def mark (s : TS) : Int × TS := (-(s.markers + 1), { s with markers := s.markers + 1 })

/-- `new_buffered`, src/token_stream.rs:106-110 -/
def newBuffered (src : Source) : TS := (newUnbuffered src).mark.2

/-- `get_buffer_start_index`, src/token_stream.rs:130-132 -/
def bufferStart (s : TS) : Int := s.cur - s.p

/-- `size`, src/token_stream.rs:290-292 -/
def size (s : TS) : Int := s.tokens.length

/-- One iteration of `fill` that fetches a token, src/token_stream.rs:141-145 -/
def fetch (s : TS) : TS :=
  let token := s.src.next s.fetched
  { s with
    fetched := s.fetched + 1
    tokens := s.tokens ++ [{ token with index := s.bufferStart + s.tokens.length }] }

/-- Is the last buffered token EOF?  src/token_stream.rs:136-137 -/
def lastIsEof (s : TS) : Bool :=
  match s.tokens.getLast? with
  | some t => t.ttype == TOKEN_EOF
  | none => false

/-- `fill`, src/token_stream.rs:134-149: the new state and the number returned. -/
def fill : Nat → TS → TS × Nat
  | 0, s => (s, 0)
  | n + 1, s =>
    if s.lastIsEof then (s, 0)
    else
      let r := fill n s.fetch
      (r.1, r.2 + 1)

/-- `sync`, src/token_stream.rs:123-128 -/
def sync (s : TS) (want : Int) : TS :=
  let need := (s.p + want - 1) - s.tokens.length + 1
  if need > 0 then (fill need.toNat s).1 else s

/-- `Vec::get` at an `isize as usize` index. -/
def getAt (s : TS) (i : Int) : Option Tok := if i < 0 then none else s.tokens[i.toNat]?

/-- `lt`, src/token_stream.rs:156-164.  `lt(-1)` with `p = 0` subtracts 1 from `0usize`: panic. -/
def lt (s : TS) (i : Int) : Option (Option Tok × TS) :=
  if i = -1 then
    if s.p = 0 then none else some (s.getAt (s.p - 1), s)
  else
    let s := s.sync i
    some (s.getAt (s.p + i - 1), s)

/-- `la`, src/token_stream.rs:224-228 -/
def la (s : TS) (i : Int) : Option (Int × TS) :=
  (s.lt i).map fun r => ((r.1.map Tok.ttype).getD TOKEN_INVALID_TYPE, r.2)

/-- `get`, src/token_stream.rs:167-169 -/
def get (s : TS) (index : Int) : Option Tok := s.getAt (index - s.bufferStart)

/-- The loop of `get_text_from_interval`, src/token_stream.rs:191-198 -/
def textLoop : List Tok → List Char
  | [] => []
  | t :: ts => if t.ttype = TOKEN_EOF then [] else t.text ++ textLoop ts

/-- `get_text_from_interval`, src/token_stream.rs:175-201.  `0 ≤ a` and `b < len` hold after the
test, so indexing does not panic. -/
def getText (s : TS) (start stop : Int) : Option (List Char) :=
  let bs := s.bufferStart
  let be := bs + s.tokens.length - 1
  if start < bs ∨ stop > be then none
  else
    let a := start - bs
    let b := stop - bs
    some (textLoop ((s.tokens.take (b + 1).toNat).drop a.toNat))

/-- `get_all_text`, src/token_stream.rs:32-34 -/
def getAllText (s : TS) : Option (List Char) := s.getText 0 (s.size - 1)

/-- `consume`, src/token_stream.rs:206-221 -/
def consume (s : TS) : Option TS :=
  match s.la 1 with
  | none => none
  | some (t, s) =>
    if t = TOKEN_EOF then none
    else
      let s := if s.p = s.tokens.length ∧ s.markers = 0 then { s with tokens := [], p := -1 } else s
      let s := { s with p := s.p + 1, cur := s.cur + 1 }
      some (s.sync 1)

/-- `release`, src/token_stream.rs:237-264 -/
def release (s : TS) (marker : Int) : Option TS :=
  if marker ≠ -s.markers then none
  else
    let s := { s with markers := s.markers - 1 }
    if s.markers = 0 ∧ s.p > 0 then
      if s.p ≤ s.tokens.length then some { s with tokens := s.tokens.drop s.p.toNat, p := 0 }
      else none
    else some s

/-- `seek`, src/token_stream.rs:272-287 -/
def seek (s : TS) (index : Int) : Option TS :=
  if s.cur = index then some s
  else
    let r : Int × TS :=
      if index > s.cur then
        let s := s.sync (index - s.cur)
        (min index (s.bufferStart + s.size + 1), s)
      else (index, s)
    let index := r.1
    let s := r.2
    let i := index - s.bufferStart
    if i < 0 ∨ i ≥ s.tokens.length then none
    else some { s with p := i, cur := index }

/-- `TokenIter::next`, src/token_stream.rs:58-69; state = (stream, finished).  Outer `none` = panic. -/
def iterNext (s : TS) (fin : Bool) : Option (Option Tok × TS × Bool) :=
  if fin then some (none, s, fin)
  else
    match s.lt 1 with
    | none => none
    | some (none, _) => none
    | some (some t, s) =>
      if t.ttype = TOKEN_EOF then some (some t, s, true)
      else (s.consume).map fun s => (some t, s, false)

end TS

/-- `IterWrapper::next` over a token stream, src/int_stream.rs:77-84 -/
def TS.intIterNext (s : TS) : Option (Option Int × TS) :=
  (s.la 1).bind fun r =>
    (r.2.consume).map fun s => (if r.1 = TOKEN_EOF then none else some r.1, s)

/-! ## CommonTokenStream -/

/-- `CommonTokenStream`, src/common_token_stream.rs:13-16 -/
structure CTS where
  base : TS
  channel : Int
deriving DecidableEq

namespace CTS

/-- `sync`, src/common_token_stream.rs:139-147 -/
def sync (s : CTS) (i : Int) : Bool × CTS :=
  let need := i - s.base.size + 1
  if need > 0 then
    let r := TS.fill need.toNat s.base
    (decide ((r.2 : Int) ≥ need), { s with base := r.1 })
  else (true, s)

/-- `with_channel`, src/common_token_stream.rs:104-111 -/
def withChannel (src : Source) (channel : Int) : CTS :=
  (CTS.sync ⟨TS.newBuffered src, channel⟩ 0).2

/-- The loop of `next_token_on_channel`, src/common_token_stream.rs:169-177: at index `i`, whose
token has been fetched.  `fuel` bounds the number of iterations; running out of it (like an index
out of bounds) gives `none`. -/
def nextLoop (channel direction : Int) : Nat → CTS → Int → Option (Int × CTS)
  | 0, _, _ => none
  | fuel + 1, s, i =>
    (s.base.getAt i).bind fun token =>
      if token.channel ≠ channel then
        if token.ttype = TOKEN_EOF ∨ i < 0 then some (i, s)
        else nextLoop channel direction fuel (s.sync (i + direction)).2 (i + direction)
      else some (i, s)

/-- `next_token_on_channel`, src/common_token_stream.rs:162-180.  The Rust loop has no bound; one
more iteration than there are tokens in the source is always enough (theorems C17, C18). -/
def nextTokenOnChannel (s : CTS) (i channel direction : Int) : Option (Int × CTS) :=
  let s := (s.sync i).2
  if i ≥ s.base.size then some (s.base.size - 1, s)
  else nextLoop channel direction (s.base.src.pre.length + 2) s i

/-- `consume`, src/common_token_stream.rs:22-29 -/
def consume (s : CTS) : Option CTS :=
  s.base.consume.bind fun b =>
    (CTS.nextTokenOnChannel { s with base := b } b.p s.channel 1).bind fun r =>
      (r.2.base.seek r.1).map fun b => { r.2 with base := b }

/-- The loop of `lt_inner`, src/common_token_stream.rs:117-123, run `k - 1` times. -/
def ltLoop : Nat → CTS → Int → Option (Int × CTS)
  | 0, s, i => some (i, s)
  | n + 1, s, i =>
    if (s.sync (i + 1)).1 then
      ((s.sync (i + 1)).2.nextTokenOnChannel (i + 1) s.channel 1).bind fun r => ltLoop n r.2 r.1
    else ltLoop n (s.sync (i + 1)).2 i

/-- The loop of `lb`, src/common_token_stream.rs:215-219, run at most `k` times. -/
def lbLoop : Nat → CTS → Int → Option (Int × CTS)
  | 0, s, i => some (i, s)
  | n + 1, s, i =>
    if i > 0 then
      (s.nextTokenOnChannel (i - 1) s.channel (-1)).bind fun r => lbLoop n r.2 r.1
    else some (i, s)

/-- `lb`, src/common_token_stream.rs:204-225 -/
def lb (s : CTS) (k : Int) : Option (Option Tok × CTS) :=
  if k = 0 ∨ s.base.p - k < 0 then some (none, s)
  else (lbLoop k.toNat s s.base.p).map fun r =>
    if r.1 < 0 then (none, r.2) else (r.2.base.getAt r.1, r.2)

/-- `lt`, src/common_token_stream.rs:70-81, with `lt_inner` 113-126 -/
def lt (s : CTS) (k : Int) : Option (Option Tok × CTS) :=
  if k = 1 then some (s.base.getAt s.base.p, s)
  else if k = 0 then none
  else if k < 0 then s.lb (-k)
  else (ltLoop (k - 1).toNat s s.base.p).map fun r => (r.2.base.getAt r.1, r.2)

/-- `la`, src/common_token_stream.rs:32-36 -/
def la (s : CTS) (i : Int) : Option (Int × CTS) :=
  (s.lt i).map fun r => ((r.1.map Tok.ttype).getD TOKEN_INVALID_TYPE, r.2)

/-- `index`, `seek`, `size`: src/common_token_stream.rs:47-59 -/
def index (s : CTS) : Int := s.base.cur
def seek (s : CTS) (i : Int) : Option CTS := (s.base.seek i).map fun b => { s with base := b }
/-- `mark`, `release`: src/common_token_stream.rs:39-44 -/
def mark (s : CTS) : Int × CTS := (0, s)
def release (s : CTS) (_marker : Int) : CTS := s
/-- `reset`, src/common_token_stream.rs:129-132 -/
def reset (s : CTS) : CTS := { s with base := { s.base with p := 0, cur := 0 } }

end CTS
end Antlr

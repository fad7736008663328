/-!
# Model of `src/char_stream.rs`, `src/input_stream.rs`, `src/int_stream.rs`

`isize` is `Int`, `usize` is `Nat`; the cast `x as usize` of a negative `isize` gives a huge
number, modelled by `none`-producing lookups.  Panics are `none` in the outer `Option`.
-/

namespace Antlr

/-- The `InputData` trait, src/char_stream.rs:20-43: what a stream needs to know of its data.
`slice`/`sliceFrom` are `&data[a..b]` and `&data[a..]`, `none` = panic. -/
class InputData (D : Type) where
  offset : D → Int → Int → Option Int
  item : D → Int → Option Int
  len : D → Nat
  slice : D → Nat → Nat → Option D
  sliceFrom : D → Nat → Option D

/-! ## Slices of code units (`[u8]`, `[u16]`, `[u32]`) -/

/-- `[T]` with `T: Into<u32>`: a list of code unit values. -/
structure Units where
  vals : List Nat
deriving DecidableEq, Repr

/-- `offset` for `[T]`, src/char_stream.rs:57-67 -/
def Units.offset (d : Units) (index itemOffset : Int) : Option Int :=
  let newIndex := index + itemOffset
  if newIndex < 0 then none
  else if newIndex > d.vals.length then none
  else some newIndex

/-- `item` for `[T]`, src/char_stream.rs:70-72 -/
def Units.item (d : Units) (index : Int) : Option Int :=
  if index < 0 then none else (d.vals[index.toNat]?).map (fun (v : Nat) => (v : Int))

instance : InputData Units where
  offset := Units.offset
  item := Units.item
  len d := d.vals.length
  slice d a b := if a ≤ b ∧ b ≤ d.vals.length then some ⟨(d.vals.take b).drop a⟩ else none
  sliceFrom d a := if a ≤ d.vals.length then some ⟨d.vals.drop a⟩ else none

/-! ## `str` -/

/-- A Rust `str`: valid UTF-8, modelled by its sequence of characters; the byte layout is
recovered from `Char.utf8Size`. -/
structure Str where
  chars : List Char
deriving DecidableEq, Repr

/-- Number of UTF-8 bytes. -/
def bytes : List Char → Nat
  | [] => 0
  | c :: cs => c.utf8Size + bytes cs

/-- The characters from byte index `i` on, if `i` is a character boundary (`str::get(i..)`,
and `str::is_char_boundary` when one only asks whether it is `some`). -/
def fromByte : List Char → Nat → Option (List Char)
  | cs, 0 => some cs
  | [], _ + 1 => none
  | c :: cs, i + 1 => if c.utf8Size ≤ i + 1 then fromByte cs (i + 1 - c.utf8Size) else none

/-- `str::is_char_boundary` (std). -/
def Str.isCharBoundary (d : Str) (i : Nat) : Bool := (fromByte d.chars i).isSome

/-- The loop of `offset` for `str`, src/char_stream.rs:126-135.  `dir` is `item_offset.signum()`. -/
def Str.offsetLoop (d : Str) (index itemOffset dir : Int) (hd : dir = 1 ∨ dir = -1) : Option Int :=
  let index' := index + dir
  if h : index' < 0 ∨ index' > bytes d.chars then none
  else
    let itemOffset' := if d.isCharBoundary index'.toNat then itemOffset - dir else itemOffset
    if itemOffset' ≠ 0 then Str.offsetLoop d index' itemOffset' dir hd else some index'
termination_by if dir = 1 then (bytes d.chars - index).toNat else index.toNat
decreasing_by
  rcases hd with rfl | rfl
  · simp; omega
  · simp; omega

/-- `offset` for `str`, src/char_stream.rs:120-138 -/
def Str.offset (d : Str) (index itemOffset : Int) : Option Int :=
  if itemOffset = 0 then some index
  else if itemOffset > 0 then Str.offsetLoop d index itemOffset 1 (.inl rfl)
  else Str.offsetLoop d index itemOffset (-1) (.inr rfl)

/-- `item` for `str`, src/char_stream.rs:141-145 -/
def Str.item (d : Str) (index : Int) : Option Int :=
  if index < 0 then none
  else (fromByte d.chars index.toNat).bind fun cs => cs.head?.map fun c => (c.toNat : Int)

/-- The characters up to byte `n` (which must be a boundary). -/
def takeBytes : List Char → Nat → List Char
  | _, 0 => []
  | [], _ + 1 => []
  | c :: cs, i + 1 => c :: takeBytes cs (i + 1 - c.utf8Size)

instance : InputData Str where
  offset := Str.offset
  item := Str.item
  len d := bytes d.chars
  slice d a b :=
    if a ≤ b ∧ d.isCharBoundary b then (fromByte (takeBytes d.chars b) a).map Str.mk else none
  sliceFrom d a := (fromByte d.chars a).map Str.mk

/-! ## `InputStream` -/

/-- `InputStream`, src/input_stream.rs:18-22 (without the name). -/
structure InputStream (D : Type) where
  data : D
  index : Int
deriving DecidableEq, Repr

/-- `int_stream::EOF`, src/int_stream.rs:4 -/
def EOF : Int := -1

namespace InputStream
variable {D : Type} [InputData D]

/-- `InputStream::new`, src/input_stream.rs:135-144 -/
def new (d : D) : InputStream D := ⟨d, 0⟩

/-- `reset`, src/input_stream.rs:152-154 -/
def reset (s : InputStream D) : InputStream D := { s with index := 0 }

/-- `consume`, src/input_stream.rs:162-170; `none` = panic "cannot consume EOF" -/
def consume (s : InputStream D) : Option (InputStream D) :=
  (InputData.offset s.data s.index 1).map fun i => { s with index := i }

/-- `la`, src/input_stream.rs:173-191; `none` = panic for offset 0 -/
def la (s : InputStream D) (offset : Int) : Option Int :=
  if offset = 1 then some ((InputData.item s.data s.index).getD EOF)
  else if offset = 0 then none
  else
    let offset := if offset < 0 then offset + 1 else offset
    some (((InputData.offset s.data s.index (offset - 1)).bind (InputData.item s.data)).getD EOF)

/-- `mark`, src/input_stream.rs:194-196 -/
def mark (s : InputStream D) : Int × InputStream D := (-1, s)

/-- `release`, src/input_stream.rs:199 -/
def release (s : InputStream D) (_marker : Int) : InputStream D := s

/-- `seek`, src/input_stream.rs:207-209 -/
def seek (s : InputStream D) (index : Int) : InputStream D := { s with index := index }

/-- `size`, src/input_stream.rs:212-214 -/
def size (s : InputStream D) : Int := InputData.len s.data

/-- `get_text_inner` / `get_text_owned`, src/input_stream.rs:93-103, 119-132; `none` = panic.
A negative `start` cast to `usize` is out of range; a negative `stop` is `≥ len`. -/
def getText (s : InputStream D) (start stop : Int) : Option D :=
  let stop := (InputData.offset s.data stop 1).getD stop
  if start < 0 then none
  else if 0 ≤ stop ∧ stop.toNat < InputData.len s.data then
    InputData.slice s.data start.toNat stop.toNat
  else InputData.sliceFrom s.data start.toNat

/-- `IterWrapper::next`, src/int_stream.rs:77-84; outer `none` = panic, inner `none` = iterator
exhausted. -/
def iterNext (s : InputStream D) : Option (Option Int × InputStream D) :=
  match s.la 1 with
  | none => none
  | some result =>
    match s.consume with
    | none => none
    | some s' => some (if result = EOF then none else some result, s')

end InputStream
end Antlr

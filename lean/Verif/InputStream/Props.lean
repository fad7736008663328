import Verif.InputStream.Lemmas

/-!
# Input streams: properties C07 – C11
-/

namespace Antlr.InputProps
open Antlr InputStream

/-- What lookahead should answer for the sequence of symbols `xs`: the symbol or EOF. -/
def symOrEof (xs : List Nat) (k : Nat) : Int :=
  match xs[k]? with
  | some v => (v : Int)
  | none => EOF

theorem units_item (data : List Nat) (i : Nat) :
    (Units.item ⟨data⟩ (i : Int)).getD EOF = symOrEof data i := by
  simp only [Units.item, symOrEof]
  rw [if_neg (by omega), Int.toNat_natCast]
  cases h : data[i]? <;> simp

theorem la_of_ge_two {D : Type} [InputData D] (s : InputStream D) (k : Int) (h : 2 ≤ k) :
    s.la k = some (((InputData.offset s.data s.index (k - 1)).bind
      (InputData.item s.data)).getD EOF) := by
  rw [InputStream.la, if_neg (by omega), if_neg (by omega)]
  simp only []
  rw [if_neg (by omega)]

theorem la_of_neg {D : Type} [InputData D] (s : InputStream D) (k : Int) (h : k < 0) :
    s.la k = some (((InputData.offset s.data s.index k).bind
      (InputData.item s.data)).getD EOF) := by
  rw [InputStream.la, if_neg (by omega), if_neg (by omega)]
  simp only []
  rw [if_pos (by omega)]
  have : k + 1 - 1 = k := by omega
  rw [this]

theorem units_offset_fwd (data : List Nat) (i k : Nat) (hk : 1 ≤ k) :
    Units.offset ⟨data⟩ (i : Int) ((k : Int) - 1) =
      if i + k - 1 ≤ data.length then some (((i + k - 1 : Nat)) : Int) else none := by
  simp only [Units.offset]
  rw [if_neg (by omega)]
  by_cases h2 : i + k - 1 ≤ data.length
  · rw [if_neg (by omega), if_pos h2]; congr 1; omega
  · rw [if_pos (by omega), if_neg h2]

theorem units_offset_bwd (data : List Nat) (i k : Nat) (hi : i ≤ data.length) :
    Units.offset ⟨data⟩ (i : Int) (-(k : Int)) =
      if k ≤ i then some (((i - k : Nat)) : Int) else none := by
  simp only [Units.offset]
  by_cases h2 : k ≤ i
  · rw [if_neg (by omega), if_neg (by omega), if_pos h2]; congr 1; omega
  · rw [if_pos (by omega), if_neg h2]

/-! ## C07 code-unit streams -/

/-- **C07** Looking ahead `k ≥ 1` symbols from position `i` reads `data[i+k-1]`, or EOF. -/
theorem C07_la_forward (data : List Nat) (i k : Nat) (hk : 1 ≤ k) :
    (InputStream.mk (Units.mk data) i).la k = some (symOrEof data (i + k - 1)) := by
  by_cases h1 : k = 1
  · subst h1
    show some ((Units.item ⟨data⟩ (i : Int)).getD EOF) = _
    rw [units_item]; simp
  · rw [la_of_ge_two _ _ (by omega)]
    show some (((Units.offset ⟨data⟩ (i : Int) _).bind (Units.item ⟨data⟩)).getD EOF) = _
    rw [units_offset_fwd data i k hk]
    by_cases h2 : i + k - 1 ≤ data.length
    · rw [if_pos h2, Option.bind_some, units_item]
    · rw [if_neg h2, symOrEof, List.getElem?_eq_none (by omega)]; rfl

/-- **C07** Looking back `k ≥ 1` symbols from a position inside the data (or its end) reads
`data[i-k]`, or EOF before the start. -/
theorem C07_la_backward (data : List Nat) (i k : Nat) (hi : i ≤ data.length) (hk : 1 ≤ k) :
    (InputStream.mk (Units.mk data) i).la (-(k : Int)) =
      some (if k ≤ i then symOrEof data (i - k) else EOF) := by
  rw [la_of_neg _ _ (by omega)]
  show some (((Units.offset ⟨data⟩ (i : Int) _).bind (Units.item ⟨data⟩)).getD EOF) = _
  rw [units_offset_bwd data i k hi]
  by_cases h2 : k ≤ i
  · rw [if_pos h2, if_pos h2, Option.bind_some, units_item]
  · rw [if_neg h2, if_neg h2]; rfl

/-- **C07** `la(0)` panics. -/
theorem C07_la_zero (data : List Nat) (i : Int) :
    (InputStream.mk (Units.mk data) i).la 0 = none := by simp [InputStream.la]

/-- **C07** Inside the data `consume` advances by one and the symbol that was ahead is now behind;
at the end it panics. -/
theorem C07_consume (data : List Nat) (i : Nat) (hi : i ≤ data.length) :
    let s := InputStream.mk (Units.mk data) i
    (i < data.length → ∃ s', s.consume = some s' ∧ s'.data = s.data ∧ s'.index = s.index + 1 ∧
      s'.la (-1) = s.la 1) ∧
    (i = data.length → s.consume = none ∧ s.la 1 = some EOF) := by
  intro s
  constructor
  · intro h
    refine ⟨⟨s.data, s.index + 1⟩, ?_, rfl, rfl, ?_⟩
    · simp only [s, consume, InputData.offset, Units.offset]
      rw [if_neg (by omega), if_neg (by omega)]; rfl
    · have h1 := C07_la_forward data i 1 (by omega)
      have h2 := C07_la_backward data (i + 1) 1 (by omega) (by omega)
      simp only [Nat.add_sub_cancel, Nat.le_add_left, ↓reduceIte] at h1 h2
      have e1 : ((1 : Nat) : Int) = 1 := rfl
      have e2 : ((i + 1 : Nat) : Int) = (i : Int) + 1 := by omega
      rw [e1] at h1 h2; rw [e2] at h2
      simp only [s]
      rw [h1, h2]
  · intro h
    constructor
    · simp only [s, consume, InputData.offset, Units.offset]
      rw [if_neg (by omega), if_pos (by omega)]; rfl
    · have h1 := C07_la_forward data i 1 (by omega)
      simp only [Nat.add_sub_cancel] at h1
      have e1 : ((1 : Nat) : Int) = 1 := rfl
      rw [e1] at h1
      simp only [s]
      rw [h1, symOrEof, List.getElem?_eq_none (by omega)]

example : (InputStream.mk (Units.mk [86, 170, 187]) 1).la 2 = some 187 ∧
    (InputStream.mk (Units.mk [86, 170, 187]) 1).la (-1) = some 86 ∧
    (InputStream.mk (Units.mk [86, 170, 187]) 1).la (-2) = some (-1) := by decide +kernel

/-! ## C08 `str` streams -/

/-- A `str` stream standing after the characters `pre`, with `post` still to come. -/
def at_ (pre post : List Char) : InputStream Str := ⟨⟨pre ++ post⟩, (bytes pre : Nat)⟩

/-- **C08** `la(k)`, `k ≥ 1`, is the code point of the k-th character ahead, or EOF. -/
theorem C08_la_forward (pre post : List Char) (k : Nat) (hk : 1 ≤ k) :
    (at_ pre post).la k = some (symOrEof (post.map Char.toNat) (k - 1)) := by
  by_cases h1 : k = 1
  · subst h1
    show some ((Str.item ⟨pre ++ post⟩ ((bytes pre : Nat) : Int)).getD EOF) = _
    rw [str_item_at]
    cases post <;> simp [symOrEof]
  · rw [la_of_ge_two _ _ (by omega)]
    show some (((Str.offset ⟨pre ++ post⟩ ((bytes pre : Nat) : Int) _).bind
      (Str.item ⟨pre ++ post⟩)).getD EOF) = _
    have e : ((k : Int) - 1) = ((k - 1 : Nat) : Int) := by omega
    rw [e, Str.offset, if_neg (by omega), if_pos (by omega),
      offsetLoop_fwd pre post (k - 1) (by omega)]
    by_cases h2 : k - 1 ≤ post.length
    · rw [if_pos h2, Option.bind_some]
      have e2 : pre ++ post = (pre ++ post.take (k - 1)) ++ post.drop (k - 1) := by simp
      rw [e2, str_item_at, List.head?_drop, symOrEof, List.getElem?_map]
      cases h : post[k - 1]? <;> simp
    · rw [if_neg h2, symOrEof, List.getElem?_eq_none (by simp; omega)]; rfl

/-- **C08** `la(-k)`, `k ≥ 1`, is the code point of the k-th character behind, or EOF. -/
theorem C08_la_backward (pre post : List Char) (k : Nat) (hk : 1 ≤ k) :
    (at_ pre post).la (-(k : Int)) = some (symOrEof (pre.reverse.map Char.toNat) (k - 1)) := by
  rw [la_of_neg _ _ (by omega)]
  show some (((Str.offset ⟨pre ++ post⟩ ((bytes pre : Nat) : Int) _).bind
    (Str.item ⟨pre ++ post⟩)).getD EOF) = _
  rw [Str.offset, if_neg (by omega), if_neg (by omega), offsetLoop_bwd pre post k hk]
  by_cases h2 : k ≤ pre.length
  · rw [if_pos h2, Option.bind_some]
    have e2 : pre ++ post = pre.take (pre.length - k) ++ (pre.drop (pre.length - k) ++ post) := by
      rw [← List.append_assoc, List.take_append_drop]
    rw [e2, str_item_at, List.head?_append, List.head?_drop, symOrEof, List.getElem?_map,
      List.getElem?_reverse (by omega)]
    have e3 : pre.length - 1 - (k - 1) = pre.length - k := by omega
    rw [e3, List.getElem?_eq_getElem (by omega)]
    simp
  · rw [if_neg h2, symOrEof, List.getElem?_eq_none (by simp; omega)]; rfl

/-- **C08** `consume` moves exactly past one character; at the end it panics. -/
theorem C08_consume (pre post : List Char) :
    (∀ c post', post = c :: post' → (at_ pre post).consume = some (at_ (pre ++ [c]) post')) ∧
    (post = [] → (at_ pre post).consume = none) := by
  constructor
  · rintro c post' rfl
    simp only [at_, consume, InputData.offset, Str.offset]
    have := offsetLoop_fwd pre (c :: post') 1 (by omega)
    simp only [Int.ofNat_one] at this
    rw [if_neg (by omega), if_pos (by omega), this]
    simp
  · rintro rfl
    simp only [at_, consume, InputData.offset, Str.offset]
    have := offsetLoop_fwd pre [] 1 (by omega)
    simp only [Int.ofNat_one] at this
    rw [if_neg (by omega), if_pos (by omega), this]
    simp

/-- Reading a stream symbol by symbol: the answers of `n` rounds of `la(1)`, `consume`. -/
def readN {D : Type} [InputData D] : Nat → InputStream D → Option (List Int × InputStream D)
  | 0, s => some ([], s)
  | n + 1, s => do
    let c ← s.la 1
    let s' ← s.consume
    let (cs, s'') ← readN n s'
    return (c :: cs, s'')

/-- **C08** Reading to the end visits every character once and in order, whatever the widths. -/
theorem C08_read_all (text : List Char) :
    readN text.length (InputStream.new (Str.mk text)) =
      some (text.map fun c => (c.toNat : Int), at_ text []) ∧ (at_ text []).la 1 = some EOF := by
  have key : ∀ post pre, readN post.length (at_ pre post) =
      some (post.map fun c => (c.toNat : Int), at_ (pre ++ post) []) := by
    intro post
    induction post with
    | nil => intro pre; simp [readN]
    | cons c post ih =>
      intro pre
      have h1 := C08_la_forward pre (c :: post) 1 (by omega)
      simp only [Int.ofNat_one] at h1
      simp only [List.length_cons, readN, h1, (C08_consume pre (c :: post)).1 c post rfl]
      simp [symOrEof, ih (pre ++ [c])]
  constructor
  · have := key text []
    simpa [InputStream.new, at_, bytes] using this
  · have h1 := C08_la_forward text [] 1 (by omega)
    simpa [symOrEof] using h1

example : (at_ ['V', '1'] ['は', '3']).la 2 = some 51 ∧
    (at_ ['V', '1', 'は'] ['3']).la (-2) = some 49 ∧
    (at_ ['V', '1', 'は'] ['3']).index = 5 := by decide +kernel

/-! ## C09 get_text -/

theorem getText_of_some {D : Type} [InputData D] (s : InputStream D) (start j : Nat) (stop : Int)
    (h : InputData.offset s.data stop 1 = some (j : Int)) :
    s.getText start stop = if j < InputData.len s.data then InputData.slice s.data start j
      else InputData.sliceFrom s.data start := by
  simp only [getText, h, Option.getD_some, Int.toNat_natCast]
  rw [if_neg (by omega)]
  by_cases h2 : j < InputData.len s.data
  · rw [if_pos ⟨by omega, h2⟩, if_pos h2]
  · rw [if_neg (by simp [h2]), if_neg h2]

theorem getText_of_none {D : Type} [InputData D] (s : InputStream D) (start : Nat) (stop : Int)
    (h : InputData.offset s.data stop 1 = none) (h2 : InputData.len s.data ≤ stop) :
    s.getText start stop = InputData.sliceFrom s.data start := by
  simp only [getText, h, Option.getD_none, Int.toNat_natCast]
  rw [if_neg (by omega), if_neg (by omega)]

/-- **C09** On code-unit streams `get_text(start, stop)` is `data[start..=stop]` (cut at the end of
the data), for every `start ≤ stop + 1` with `start` inside the data. -/
theorem C09_units (data : List Nat) (i : Int) (start : Nat) (stop : Int) (h0 : -1 ≤ stop)
    (h : (start : Int) ≤ stop + 1) (hs : start ≤ data.length) :
    (InputStream.mk (Units.mk data) i).getText start stop =
      some ⟨(data.take (stop + 1).toNat).drop start⟩ := by
  have hoff : InputData.offset (Units.mk data) stop 1 =
      if (stop + 1).toNat ≤ data.length then some (((stop + 1).toNat : Nat) : Int) else none := by
    show Units.offset _ _ _ = _
    simp only [Units.offset]
    rw [if_neg (by omega)]
    by_cases h1 : stop + 1 ≤ data.length
    · rw [if_neg (by omega), if_pos (by omega)]; congr 1; omega
    · rw [if_pos (by omega), if_neg (by omega)]
  by_cases h1 : (stop + 1).toNat ≤ data.length
  · rw [if_pos h1] at hoff
    rw [getText_of_some _ _ _ _ hoff]
    simp only [InputData.len, InputData.slice, InputData.sliceFrom]
    by_cases h2 : (stop + 1).toNat < data.length
    · rw [if_pos h2, if_pos (by omega)]
    · rw [if_neg h2, if_pos (by omega)]
      have : (stop + 1).toNat = data.length := by omega
      simp [this]
  · rw [if_neg h1] at hoff
    rw [getText_of_none _ _ _ hoff (by simp only [InputData.len]; omega)]
    simp only [InputData.sliceFrom]
    rw [if_pos (by omega), List.take_of_length_le (by omega)]

/-- **C09** On `str` streams: `start` at the first byte of `mid ++ [c]`, `stop` anywhere inside the
last character `c` (its first byte as in `Char` positions, or its last byte as computed by the
lexer): the text is exactly these characters. -/
theorem C09_str (pre mid post : List Char) (c : Char) (i : Int) (k : Nat) (hk : k < c.utf8Size) :
    (InputStream.mk (Str.mk (pre ++ (mid ++ [c]) ++ post)) i).getText (bytes pre : Nat)
      (bytes (pre ++ mid) + k : Nat) = some ⟨mid ++ [c]⟩ := by
  have e : pre ++ (mid ++ [c]) ++ post = (pre ++ mid) ++ c :: post := by simp
  have h1 := offsetLoop_fwd_char (pre ++ mid) post c k 1 (by omega) hk
  simp only [Int.ofNat_one, ↓reduceIte] at h1
  have hoff : InputData.offset (Str.mk (pre ++ mid ++ c :: post)) (bytes (pre ++ mid) + k : Nat) 1 =
      some ((bytes (pre ++ mid ++ [c]) : Nat) : Int) := by
    show Str.offset _ _ _ = _
    rw [Str.offset, if_neg (by omega), if_pos (by omega), h1]
  rw [e, getText_of_some _ _ _ _ hoff]
  simp only [InputData.len, InputData.slice, InputData.sliceFrom]
  have e2 : pre ++ mid ++ c :: post = (pre ++ mid ++ [c]) ++ post := by simp
  split
  · rw [if_pos]
    · rw [e2, takeBytes_append]
      have := fromByte_append pre (mid ++ [c])
      simp only [List.append_assoc] at this ⊢
      rw [this]; rfl
    · refine ⟨?_, ?_⟩
      · rw [List.append_assoc, bytes_append]; omega
      · rw [e2]; exact boundary_at _ _
  · rename_i hn
    have : post = [] := by
      by_contra hne
      have := bytes_pos_of_ne_nil hne
      apply hn
      rw [e2, bytes_append (pre ++ mid ++ [c]) post]; omega
    subst this
    have := fromByte_append pre (mid ++ [c])
    simp only [List.append_assoc] at this ⊢
    rw [this]; rfl

/-- **C09** The empty range `(p, p-1)` at any character position — in particular the range of the
EOF token `(size, size-1)` — yields the empty text. -/
theorem C09_str_empty (pre post : List Char) (i : Int) :
    (InputStream.mk (Str.mk (pre ++ post)) i).getText (bytes pre : Nat) ((bytes pre : Nat) - 1) =
      some ⟨[]⟩ := by
  have hoff : (Str.mk (pre ++ post)).offset ((bytes pre : Nat) - 1) 1 = some ((bytes pre : Nat) : Int) := by
    simp only [Str.offset]
    rw [if_neg (by omega), if_pos (by omega)]
    rw [Str.offsetLoop]
    have hb : bytes (pre ++ post) = bytes pre + bytes post := bytes_append _ _
    rw [dif_neg (by simp only [hb]; omega)]
    have e : ((bytes pre : Nat) - 1 + 1 : Int) = ((bytes pre : Nat) : Int) := by omega
    rw [e]
    simp [boundary_at]
  rw [getText_of_some _ _ _ _ hoff]
  simp only [InputData.len, InputData.slice, InputData.sliceFrom]
  split
  · rw [if_pos ⟨Nat.le_refl _, boundary_at _ _⟩, takeBytes_append]
    have := fromByte_append pre []
    simp only [List.append_nil] at this
    rw [this]; rfl
  · rename_i hn
    have : post = [] := by
      by_contra hne
      have := bytes_pos_of_ne_nil hne
      apply hn
      rw [bytes_append]; omega
    subst this
    rw [fromByte_append]; rfl

/-- **C09** Adjacent ranges concatenate to the enclosing range. -/
theorem C09_str_concat (pre m₁ m₂ post : List Char) (c₁ c₂ : Char) (i : Int) :
    let s := InputStream.mk (Str.mk (pre ++ (m₁ ++ [c₁] ++ m₂ ++ [c₂]) ++ post)) i
    let p₀ : Int := (bytes pre : Nat)
    let p₁ : Int := (bytes (pre ++ m₁ ++ [c₁]) : Nat)
    let p₂ : Int := (bytes (pre ++ m₁ ++ [c₁] ++ m₂ ++ [c₂]) : Nat)
    ∃ a b : Str, s.getText p₀ (p₁ - 1) = some a ∧ s.getText p₁ (p₂ - 1) = some b ∧
      s.getText p₀ (p₂ - 1) = some ⟨a.chars ++ b.chars⟩ := by
  intro s p₀ p₁ p₂
  have q1 := utf8Size_pos c₁
  have q2 := utf8Size_pos c₂
  refine ⟨⟨m₁ ++ [c₁]⟩, ⟨m₂ ++ [c₂]⟩, ?_, ?_, ?_⟩
  · have := C09_str pre m₁ (m₂ ++ [c₂] ++ post) c₁ i (c₁.utf8Size - 1) (by omega)
    have e : p₁ - 1 = ((bytes (pre ++ m₁) + (c₁.utf8Size - 1) : Nat) : Int) := by
      simp only [p₁, bytes_append, bytes]; omega
    rw [e]; simpa [s, p₀] using this
  · have := C09_str (pre ++ m₁ ++ [c₁]) m₂ post c₂ i (c₂.utf8Size - 1) (by omega)
    have e : p₂ - 1 = ((bytes (pre ++ m₁ ++ [c₁] ++ m₂) + (c₂.utf8Size - 1) : Nat) : Int) := by
      simp only [p₂, bytes_append, bytes]; omega
    rw [e]; simpa [s, p₁] using this
  · have := C09_str pre (m₁ ++ [c₁] ++ m₂) post c₂ i (c₂.utf8Size - 1) (by omega)
    have e : p₂ - 1 = ((bytes (pre ++ (m₁ ++ [c₁] ++ m₂)) + (c₂.utf8Size - 1) : Nat) : Int) := by
      simp only [p₂, bytes_append, bytes]; omega
    rw [e]; simpa [s, p₀] using this

example : (InputStream.mk (Str.mk ['V', '1', 'は', '3']) 0).getText 1 4 = some ⟨['1', 'は']⟩ ∧
    (InputStream.mk (Str.mk ['V', '1', 'は', '3']) 0).getText 1 2 = some ⟨['1', 'は']⟩ := by
  decide +kernel

/-! ## C10 seek / index -/

/-- The stream operations a client may perform. -/
inductive Op where
  | consume | la (k : Int) | mark | release (m : Int) | seek (i : Int) | reset
  | getText (a b : Int)

/-- The stream after an operation (`none` = panic). -/
def Op.run {D : Type} [InputData D] (s : InputStream D) : Op → Option (InputStream D)
  | .consume => s.consume
  | .la k => (s.la k).map fun _ => s
  | .mark => some s.mark.2
  | .release m => some (s.release m)
  | .seek i => some (s.seek i)
  | .reset => some s.reset
  | .getText a b => (s.getText a b).map fun _ => s

/-- A sequence of operations. -/
def runOps {D : Type} [InputData D] (s : InputStream D) : List Op → Option (InputStream D)
  | [] => some s
  | o :: os => (o.run s).bind fun s' => runOps s' os

/-- **C10** After any operations, seeking to a previously returned index restores the stream. -/
theorem C10_seek_restores {D : Type} [InputData D] (s s' : InputStream D) (ops : List Op)
    (h : runOps s ops = some s') : s'.seek s.index = s := by
  have key : s'.data = s.data := by
    induction ops generalizing s with
    | nil => simp [runOps] at h; rw [h]
    | cons o os ih =>
      simp only [runOps, Option.bind_eq_some_iff] at h
      obtain ⟨t, ht, h⟩ := h
      rw [ih t h]
      cases o <;> simp only [Op.run, consume, Option.map_eq_some_iff, InputStream.mark, release,
        InputStream.seek, InputStream.reset, Option.some.injEq] at ht
      · obtain ⟨_, _, rfl⟩ := ht; rfl
      · obtain ⟨_, _, rfl⟩ := ht; rfl
      · rw [← ht]
      · rw [← ht]
      · rw [← ht]
      · rw [← ht]
      · obtain ⟨_, _, rfl⟩ := ht; rfl
  cases s; cases s'; simp_all [InputStream.seek]

example : runOps (at_ ['a', 'は'] ['b']) [.la 2, .reset, .consume, .getText 0 3, .consume] =
    some (at_ ['a', 'は'] ['b']) := by decide +kernel

/-! ## C11 iteration -/

/-- **C11, partial.**  Before the end the iterator yields the current symbol and moves on. -/
theorem C11_iter_next_partial (pre post : List Char) (c : Char) :
    (at_ pre (c :: post)).iterNext = some (some (c.toNat : Int), at_ (pre ++ [c]) post) := by
  have h1 := C08_la_forward pre (c :: post) 1 (by omega)
  simp only [Int.ofNat_one] at h1
  simp only [iterNext, h1, (C08_consume pre (c :: post)).1 c post rfl]
  simp only [symOrEof, Nat.sub_self, List.map_cons, List.getElem?_cons_zero]
  rw [if_neg (by simp only [EOF]; omega)]

/-- **C11 is false**: at the end of *every* text the iterator panics instead of returning `None`. -/
theorem C11_false_panics_at_end (text : List Char) : (at_ text []).iterNext = none := by
  have h1 := C08_la_forward text [] 1 (by omega)
  simp only [Int.ofNat_one] at h1
  simp only [iterNext, h1, (C08_consume text []).2 rfl]

/-- **C11 is false** for code-unit streams as well. -/
theorem C11_false_panics_at_end_units (data : List Nat) :
    (InputStream.mk (Units.mk data) data.length).iterNext = none := by
  obtain ⟨h1, h2⟩ := (C07_consume data data.length (Nat.le_refl _)).2 rfl
  simp only [iterNext, h1, h2]

end Antlr.InputProps

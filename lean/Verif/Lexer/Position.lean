import Verif.Lexer.Spec
import Verif.InputStream.Props

/-!
# Positions: helper lemmas for C20 – C24, C27, C28
-/

namespace Antlr.LexProps
open Antlr Lexer LexSpec InputProps

set_option linter.unusedSectionVars false
set_option linter.unnecessarySeqFocus false

variable {D : Type} [InputData D]

/-! ## Streams read as sequences of characters -/

theorem reads_units (data : List Nat) :
    Reads (Units.mk data) (data.map fun (v : Nat) => (v : Int)) (fun n => n)
      (fun a b => ⟨(data.take b).drop a⟩) where
  first := rfl
  mono := fun n _ => by omega
  chars := by simp
  size := by simp [InputData.len]
  la := fun n _ => by
    have h := C07_la_forward data n 1 (by omega)
    simp only [Int.ofNat_one] at h
    rw [h]
    simp only [symOrEof, Nat.add_sub_cancel, List.getElem?_map]
    cases data[n]? <;> simp
  consume := fun n hn => by
    simp only [List.length_map] at hn
    simp only [InputStream.consume, InputData.offset, Units.offset]
    rw [if_neg (by omega), if_neg (by omega)]
    rfl
  last := by
    simp only [InputStream.consume, InputData.offset, Units.offset, List.length_map]
    rw [if_neg (by omega), if_pos (by omega)]
    rfl
  text := fun a b i hab hb => by
    simp only [List.length_map] at hb
    have h := C09_units data i a ((b : Int) - 1) (by omega) (by omega) (by omega)
    rw [h, show ((b : Int) - 1 + 1).toNat = b by omega]
  textThrough := fun a n i han hn => by
    simp only [List.length_map] at hn ⊢
    have h := C09_units data i a (n : Int) (by omega) (by omega) (by omega)
    rw [h]; congr 2
    have : ((n : Int) + 1).toNat = n + 1 := by omega
    rw [this]
    by_cases h1 : n + 1 ≤ data.length
    · rw [Nat.min_eq_left h1]
    · rw [Nat.min_eq_right (by omega), List.take_of_length_le (by omega), List.take_of_length_le (by omega)]

theorem str_split (text : List Char) (a b : Nat) (hab : a ≤ b) :
    text = text.take a ++ ((text.take b).drop a) ++ text.drop b := by
  rw [← List.take_append_drop b text]
  conv => lhs; rw [← List.take_append_drop a (text.take b)]
  simp [List.take_take, Nat.min_eq_left hab]

theorem reads_str (text : List Char) :
    Reads (Str.mk text) (text.map fun c => (c.toNat : Int)) (fun n => (bytes (text.take n) : Nat))
      (fun a b => ⟨(text.take b).drop a⟩) where
  first := by simp [bytes]
  mono := fun n hn => by
    simp only [List.length_map] at hn
    rw [List.take_add_one, bytes_append, List.getElem?_eq_getElem hn]
    have := utf8Size_pos text[n]
    simp [bytes]; omega
  chars := by simp
  size := by simp [InputData.len]
  la := fun n _ => by
    have h := C08_la_forward (text.take n) (text.drop n) 1 (by omega)
    simp only [InputProps.at_, Int.ofNat_one, List.take_append_drop] at h
    rw [h]
    simp only [symOrEof, Nat.sub_self, List.getElem?_map, List.getElem?_drop, Nat.add_zero]
    cases text[n]? <;> simp
  consume := fun n hn => by
    simp only [List.length_map] at hn
    have h := (C08_consume (text.take n) (text.drop n)).1 text[n] (text.drop (n + 1))
      (List.drop_eq_getElem_cons hn)
    simp only [InputProps.at_, List.take_append_drop] at h
    rw [h]
    have e : text.take n ++ [text[n]] = text.take (n + 1) := by
      rw [List.take_add_one, List.getElem?_eq_getElem hn]; rfl
    rw [e, List.take_append_drop]
  last := by
    have h := (C08_consume text []).2 rfl
    simp only [InputProps.at_, List.append_nil] at h
    simpa using h
  text := fun a b i hab hb => by
    simp only [List.length_map] at hb
    by_cases h : a = b
    · subst h
      have h := C09_str_empty (text.take a) (text.drop a) i
      rw [List.take_append_drop] at h
      rw [h]; simp
    · have hb0 : b - 1 < text.length := by omega
      have e2 : (text.take b).drop a = (text.take (b - 1)).drop a ++ [text[b - 1]] := by
        have : b = b - 1 + 1 := by omega
        conv => lhs; rw [this, List.take_add_one, List.getElem?_eq_getElem hb0]
        rw [Option.toList_some, List.drop_append_of_le_length (by simp; omega)]
      have e3 : text.take b = text.take a ++ ((text.take b).drop a) := by
        conv => lhs; rw [← List.take_append_drop a (text.take b)]
        rw [List.take_take, Nat.min_eq_left hab]
      have hu := utf8Size_pos text[b - 1]
      have h := C09_str (text.take a) ((text.take (b - 1)).drop a) (text.drop b) text[b - 1] i
        (text[b - 1].utf8Size - 1) (by omega)
      rw [← e2, ← str_split text a b hab] at h
      rw [← h]; congr 1
      rw [e3, e2]
      simp only [bytes_append, bytes]; omega
  textThrough := fun a n i han hn => by
    simp only [List.length_map] at hn ⊢
    by_cases hlt : n < text.length
    · rw [Nat.min_eq_left (by omega)]
      have e2 : (text.take (n + 1)).drop a = (text.take n).drop a ++ [text[n]] := by
        rw [List.take_add_one, List.getElem?_eq_getElem hlt, Option.toList_some,
          List.drop_append_of_le_length (by simp; omega)]
      have e3 : text.take n = text.take a ++ ((text.take n).drop a) := by
        conv => lhs; rw [← List.take_append_drop a (text.take n)]
        rw [List.take_take, Nat.min_eq_left han]
      have hu := utf8Size_pos text[n]
      have h := C09_str (text.take a) ((text.take n).drop a) (text.drop (n + 1)) text[n] i 0 hu
      rw [← e2, ← str_split text a (n + 1) (by omega), ← e3] at h
      rw [Nat.add_zero] at h
      exact h
    · have hn' : n = text.length := by omega
      subst hn'
      rw [Nat.min_eq_right (by omega), List.take_of_length_le (Nat.le_refl _)]
      have hoff : (Str.mk text).offset ((bytes text : Nat) : Int) 1 = none := by
        have h := (C08_consume text []).2 rfl
        simp only [InputProps.at_, List.append_nil, InputStream.consume, InputData.offset,
          Option.map_eq_none_iff] at h
        exact h
      simp only [InputStream.getText, InputData.offset, hoff, Option.getD_none, InputData.len,
        InputData.sliceFrom]
      rw [if_neg (by omega), if_neg (by omega)]
      have := fromByte_append (text.take a) (text.drop a)
      rw [List.take_append_drop] at this
      simp [this]

/-! ## Lines and columns -/

theorem lineOf_zero (cs : List Int) : lineOf cs 0 = 1 := by simp [lineOf]
theorem colOf_zero (cs : List Int) : colOf cs 0 = 0 := by simp [colOf]

theorem lineOf_succ {cs : List Int} {n : Nat} {c : Int} (h : cs[n]? = some c) :
    lineOf cs (n + 1) = if c = 10 then lineOf cs n + 1 else lineOf cs n := by
  simp only [lineOf, List.take_add_one, h, Option.toList_some, List.count_append,
    List.count_singleton]
  split <;> simp_all <;> omega

theorem colOf_succ {cs : List Int} {n : Nat} {c : Int} (h : cs[n]? = some c) :
    colOf cs (n + 1) = if c = 10 then 0 else colOf cs n + 1 := by
  simp only [colOf, List.take_add_one, h, Option.toList_some, List.reverse_append,
    List.reverse_cons, List.reverse_nil, List.nil_append, List.singleton_append, List.takeWhile_cons]
  by_cases h1 : c = 10 <;> simp [h1]

variable {d : D} {cs : List Int} {ix : Nat → Int} {sl : Nat → Nat → D}

theorem consume_at (R : Reads d cs ix sl) {n : Nat} (hn : n < cs.length) :
    (LexSpec.at_ d cs ix n).consume = some (LexSpec.at_ d cs ix (n + 1)) := by
  have hg : cs[n]? = some cs[n] := List.getElem?_eq_getElem hn
  simp only [Cursor.consume, LexSpec.at_, R.la n (by omega), R.consume n hn, Option.bind_some,
    Option.map_some, lineOf_succ hg, colOf_succ hg, hg, Option.getD_some]
  split <;> rfl

/-- The symbol at a position. -/
def symAt (cs : List Int) (n : Nat) : Int := (cs[n]?).getD EOF

theorem la_at (R : Reads d cs ix sl) {n : Nat} (hn : n ≤ cs.length) :
    (LexSpec.at_ d cs ix n).input.la 1 = some (symAt cs n) := R.la n hn

theorem symAt_eof_iff (R : Reads d cs ix sl) {n : Nat} (hn : n ≤ cs.length) :
    symAt cs n = EOF ↔ n = cs.length := by
  constructor
  · intro h
    by_contra hne
    have hlt : n < cs.length := by omega
    have := R.chars cs[n] (List.getElem_mem hlt)
    simp only [symAt, List.getElem?_eq_getElem hlt, Option.getD_some] at h
    simp only [EOF] at h; omega
  · intro h; subst h; simp [symAt]

theorem ix_le (R : Reads d cs ix sl) {a b : Nat} (hab : a ≤ b) (hb : b ≤ cs.length) : ix a ≤ ix b := by
  induction b with
  | zero => rw [show a = 0 by omega]; exact Int.le_refl _
  | succ b ih =>
    by_cases h : a = b + 1
    · rw [h]; exact Int.le_refl _
    · have := ih (by omega) (by omega)
      have := R.mono b (by omega)
      omega

theorem ix_lt (R : Reads d cs ix sl) {a b : Nat} (hab : a < b) (hb : b ≤ cs.length) : ix a < ix b := by
  have := R.mono a (by omega)
  have := ix_le R (show a + 1 ≤ b by omega) hb
  omega

theorem ix_inj (R : Reads d cs ix sl) {a b : Nat} (ha : a ≤ cs.length) (hb : b ≤ cs.length)
    (h : ix a = ix b) : a = b := by
  rcases Nat.lt_trichotomy a b with h1 | h1 | h1
  · have := ix_lt R h1 hb; omega
  · exact h1
  · have := ix_lt R h1 ha; omega

theorem recover_at (R : Reads d cs ix sl) {n : Nat} (hn : n ≤ cs.length) :
    (LexSpec.at_ d cs ix n).recover = some (LexSpec.at_ d cs ix (min (n + 1) cs.length)) := by
  simp only [Cursor.recover, la_at R hn, Option.bind_some]
  by_cases h : n = cs.length
  · rw [if_pos ((symAt_eof_iff R hn).mpr h)]; congr 2; omega
  · rw [if_neg (fun h' => h ((symAt_eof_iff R hn).mp h')), consume_at R (by omega)]; congr 2; omega

/-! ## Positions during a match -/

/-- The remembered accept position is a position between `a` and `n`. -/
def PrevOk (cs : List Int) (ix : Nat → Int) (a n : Nat) (prev : Option Accept) : Prop :=
  ∀ p, prev = some p → ∃ k, a ≤ k ∧ k ≤ n ∧ p.index = ix k ∧ p.line = lineOf cs k ∧ p.col = colOf cs k

theorem capture_ok {dfa : DFA} {s a n : Nat} {prev : Option Accept} {r : Bool × Option Accept}
    (h : capture dfa (LexSpec.at_ d cs ix n) s prev = some r) (hp : PrevOk cs ix a n prev) (ha : a ≤ n) :
    PrevOk cs ix a n r.2 := by
  simp only [capture, Option.map_eq_some_iff] at h
  obtain ⟨st, _, rfl⟩ := h
  split
  · intro p hp; simp at hp; subst hp; exact ⟨n, ha, Nat.le_refl _, rfl, rfl, rfl⟩
  · exact hp

theorem execLoop_pos (R : Reads d cs ix sl) {atn : ATN} {hash : List Config → Nat}
    {sp : Int → Int → Cursor D → Bool} {fc : Nat} {start : Int} {a : Nat} (fuel : Nat) :
    ∀ {n : Nat} {dfa : DFA} {s : Nat} {prev : Option Accept} {x : Stop D}, a ≤ n → n ≤ cs.length →
    PrevOk cs ix a n prev →
    execLoop atn hash sp fc start fuel (LexSpec.at_ d cs ix n) dfa s (symAt cs n) prev = some x →
    ∃ m, n ≤ m ∧ m ≤ cs.length ∧ x.cur = LexSpec.at_ d cs ix m ∧ x.symbol = symAt cs m ∧
      PrevOk cs ix a m x.prev := by
  induction fuel with
  | zero => intro n dfa s prev x _ _ _ h; simp [execLoop] at h
  | succ fuel ih =>
    intro n dfa s prev x ha hn hp h
    simp only [execLoop] at h
    obtain ⟨et, _, h⟩ := Option.bind_eq_some_iff.mp h
    obtain ⟨r, _, h⟩ := Option.bind_eq_some_iff.mp h
    split at h
    · injection h with h; subst h; exact ⟨n, Nat.le_refl _, hn, rfl, rfl, hp⟩
    · obtain ⟨c, hc, h⟩ := Option.bind_eq_some_iff.mp h
      obtain ⟨cap, hcap, h⟩ := Option.bind_eq_some_iff.mp h
      have hcm : ∃ m, n ≤ m ∧ m ≤ cs.length ∧ c = LexSpec.at_ d cs ix m ∧
          (symAt cs n = EOF → m = n) := by
        split at hc
        · rename_i hne
          have hlt : n < cs.length := by
            have := (symAt_eof_iff R hn).not.mp hne; omega
          rw [consume_at R hlt] at hc; injection hc with hc
          exact ⟨n + 1, by omega, by omega, hc.symm, fun h => absurd h hne⟩
        · injection hc with hc; exact ⟨n, Nat.le_refl _, hn, hc.symm, fun _ => rfl⟩
      obtain ⟨m, hm1, hm2, rfl, hm3⟩ := hcm
      have hp' : PrevOk cs ix a m prev := fun p hp0 => by
        obtain ⟨k, h1, h2, h3⟩ := hp p hp0; exact ⟨k, h1, by omega, h3⟩
      have hcap' := capture_ok hcap hp' (by omega)
      split at h
      · rename_i hbr
        injection h with h; subst h
        simp only [Bool.and_eq_true, decide_eq_true_eq] at hbr
        refine ⟨m, hm1, hm2, rfl, ?_, hcap'⟩
        rw [hm3 hbr.2]
      · rw [la_at R hm2, Option.bind_some] at h
        obtain ⟨m', h1, h2, h3⟩ := ih (by omega) hm2 hcap' h
        exact ⟨m', by omega, h2, h3⟩

/-! ## Actions -/

theorem Untouched.refl (L : Lex D) : Untouched L L := ⟨rfl, rfl, rfl, rfl, rfl, rfl, rfl, rfl⟩

theorem Untouched.trans {L L' L'' : Lex D} (h : Untouched L L') (h' : Untouched L' L'') :
    Untouched L L'' :=
  ⟨h'.cur.trans h.cur, h'.startIndex.trans h.startIndex, h'.startLine.trans h.startLine,
   h'.startCol.trans h.startCol, h'.hitEof.trans h.hitEof, h'.token.trans h.token,
   h'.reports.trans h.reports, h'.pieces.trans h.pieces⟩

theorem executeAction_untouched {action : Int → Int → Lex D → Lex D}
    (ht : ∀ r a L, Untouched L (action r a L)) (a : LexerAction) (L : Lex D) :
    Untouched L (executeAction action a L) := by
  induction a with
  | custom r a => exact ht r a L
  | popMode =>
    simp only [executeAction, Lex.popMode]
    split <;> exact ⟨rfl, rfl, rfl, rfl, rfl, rfl, rfl, rfl⟩
  | indexedCustom o a ih => simpa only [executeAction] using ih
  | _ => exact ⟨rfl, rfl, rfl, rfl, rfl, rfl, rfl, rfl⟩

theorem seek_seek (L : Lex D) (i j : Int) : (L.seek i).seek j = L.seek j := rfl

theorem seek_self (L : Lex D) : L.seek L.cur.input.index = L := rfl

/-- Actions that are not position dependent do not look at the input. -/
theorem executeAction_seek {action : Int → Int → Lex D → Lex D} (a : LexerAction)
    (h : isPositionDependent a = false) (L : Lex D) (i : Int) :
    executeAction action a (L.seek i) = (executeAction action a L).seek i := by
  cases a with
  | custom => simp [isPositionDependent] at h
  | indexedCustom => simp [isPositionDependent] at h
  | popMode =>
    obtain ⟨_, _, _, _, _, _, _, _, ms, _, _, _, _⟩ := L
    cases ms <;> rfl
  | _ => rfl

theorem executeLoop_spec {action : Int → Int → Lex D → Lex D}
    (ht : ∀ r a L, Untouched L (action r a L)) (start stop : Int) (as : List LexerAction) :
    ∀ (L : Lex D) (rs : Bool), rs = decide (L.cur.input.index ≠ stop) →
      (let r := executeLoop action start stop as L rs
       r.2 = decide (r.1.cur.input.index ≠ stop)) ∧
      (executeLoop action start stop as L rs).1.seek stop = performAll action start stop as L := by
  induction as with
  | nil => intro L rs h; exact ⟨h, rfl⟩
  | cons a as ih =>
    intro L rs h
    have key : ∀ a : LexerAction, (∀ o b, a ≠ .indexedCustom o b) →
        executeLoop action start stop (a :: as) L rs =
          if isPositionDependent a then
            executeLoop action start stop as (executeAction action a (L.seek stop)) false
          else executeLoop action start stop as (executeAction action a L) rs := by
      intro a hne
      cases a <;> first | rfl | exact absurd rfl (hne _ _)
    by_cases hi : ∃ o b, a = .indexedCustom o b
    · obtain ⟨o, b, rfl⟩ := hi
      simp only [executeLoop, performAll, actionPos]
      refine ih _ _ ?_
      rw [(executeAction_untouched ht _ _).cur]; rfl
    · have hne : ∀ o b, a ≠ .indexedCustom o b := fun o b h => hi ⟨o, b, h⟩
      rw [key a hne]
      have hpos : actionPos start stop a = stop := by
        cases a <;> first | rfl | exact absurd rfl (hne _ _)
      simp only [performAll, hpos]
      cases hd : isPositionDependent a
      · simp only [Bool.false_eq_true, ↓reduceIte]
        have h1 := ih (executeAction action a L) rs (by rw [(executeAction_untouched ht _ _).cur]; exact h)
        refine ⟨h1.1, ?_⟩
        rw [h1.2, executeAction_seek a hd]
        cases as with
        | nil => rfl
        | cons b as => simp only [performAll, seek_seek]
      · simp only [↓reduceIte]
        refine ih _ _ ?_
        rw [(executeAction_untouched ht _ _).cur]; simp [Lex.seek, InputStream.seek]

/-- Everything but type, channel, text and modes, when only the input has been moved. -/
theorem performAll_untouched {action : Int → Int → Lex D → Lex D}
    (ht : ∀ r a L, Untouched L (action r a L)) (start stop : Int) (as : List LexerAction) :
    ∀ L : Lex D, Untouched (L.seek stop) (performAll action start stop as L) := by
  induction as with
  | nil => intro L; exact Untouched.refl _
  | cons a as ih =>
    intro L
    have h1 := ih (executeAction action a (L.seek (actionPos start stop a)))
    have h2 := executeAction_untouched ht a (L.seek (actionPos start stop a))
    simp only [performAll]
    refine ⟨?_, ?_, ?_, ?_, ?_, ?_, ?_, ?_⟩
    · rw [h1.cur]
      have e : ∀ M : Lex D, (M.seek stop).cur = { M.cur with input := M.cur.input.seek stop } := fun _ => rfl
      rw [e, h2.cur]; rfl
    · rw [h1.startIndex]; exact h2.startIndex
    · rw [h1.startLine]; exact h2.startLine
    · rw [h1.startCol]; exact h2.startCol
    · rw [h1.hitEof]; exact h2.hitEof
    · rw [h1.token]; exact h2.token
    · rw [h1.reports]; exact h2.reports
    · rw [h1.pieces]; exact h2.pieces

theorem executeActions_spec {action : Int → Int → Lex D → Lex D}
    (ht : ∀ r a L, Untouched L (action r a L)) (as : List LexerAction) (L : Lex D) (start : Int) :
    executeActions action as L start = performAll action start L.cur.input.index as L := by
  have h := executeLoop_spec ht start L.cur.input.index as L false (by simp)
  simp only [executeActions]
  rw [← h.2]
  have h1 := h.1
  simp only at h1
  split
  · rfl
  · rename_i hne
    rw [h1] at hne
    simp only [decide_eq_true_eq, not_not] at hne
    have e := seek_self (executeLoop action start L.cur.input.index as L false).1
    rw [hne] at e
    exact e.symm

/-! ## One match -/

/-- The fields a match does not touch, apart from the cursor. -/
structure Kept (L L' : Lex D) : Prop where
  startIndex : L'.startIndex = L.startIndex
  startLine : L'.startLine = L.startLine
  startCol : L'.startCol = L.startCol
  hitEof : L'.hitEof = L.hitEof
  token : L'.token = L.token
  reports : L'.reports = L.reports
  pieces : L'.pieces = L.pieces

theorem Untouched.kept {L L' : Lex D} (h : Untouched L L') : Kept L L' :=
  ⟨h.startIndex, h.startLine, h.startCol, h.hitEof, h.token, h.reports, h.pieces⟩

theorem failOrAccept_pos {action : Int → Int → Lex D → Lex D}
    (ht : ∀ r a L, Untouched L (action r a L)) {start : Int} {x : Stop D} {L : Lex D}
    {res : MatchRes} {L' : Lex D} {a m : Nat} (ham : a ≤ m)
    (hx : x.cur = LexSpec.at_ d cs ix m)
    (hp : PrevOk cs ix a m x.prev) (h : failOrAccept action start x L = some (res, L')) :
    Kept L L' ∧ ∃ k, a ≤ k ∧ k ≤ m ∧ L'.cur = LexSpec.at_ d cs ix k ∧
      (res.casesOn (fun _ => True) (fun _ => k = m) (k = m) : Prop) := by
  simp only [failOrAccept] at h
  split at h
  · rename_i acc hacc
    obtain ⟨k, h1, h2, h3, h4, h5⟩ := hp acc hacc
    simp only [Option.map_eq_some_iff] at h
    obtain ⟨st, _, h⟩ := h
    injection h with hr hL
    have hcur : (⟨x.cur.input.seek acc.index, acc.line, acc.col⟩ : Cursor D) = LexSpec.at_ d cs ix k := by
      rw [hx, h3, h4, h5]; rfl
    rw [hcur] at hL
    subst hr
    cases hex : st.executor with
    | none =>
      rw [hex] at hL; subst hL
      exact ⟨⟨rfl, rfl, rfl, rfl, rfl, rfl, rfl⟩, k, h1, h2, rfl, trivial⟩
    | some as =>
      rw [hex] at hL
      simp only at hL
      rw [executeActions_spec ht] at hL
      have hu := performAll_untouched ht start
        ({ L with cur := LexSpec.at_ d cs ix k } : Lex D).cur.input.index as { L with cur := LexSpec.at_ d cs ix k }
      rw [hL] at hu
      exact ⟨⟨hu.startIndex, hu.startLine, hu.startCol, hu.hitEof, hu.token, hu.reports, hu.pieces⟩,
        k, h1, h2, hu.cur, trivial⟩
  · split at h
    · injection h with h; injection h with hr hL; subst hr hL
      exact ⟨⟨rfl, rfl, rfl, rfl, rfl, rfl, rfl⟩, m, ham, Nat.le_refl _, hx, trivial⟩
    · injection h with h; injection h with hr hL; subst hr hL
      exact ⟨⟨rfl, rfl, rfl, rfl, rfl, rfl, rfl⟩, m, ham, Nat.le_refl _, hx, rfl⟩

theorem execAtn_pos (R : Reads d cs ix sl) {env : Env D} (ht : Tame env) {fc fe : Nat} {start : Int}
    {L L' : Lex D} {dfa dfa' : DFA} {s0 : Nat} {res : MatchRes} {n : Nat} (hn : n ≤ cs.length)
    (hL : L.cur = LexSpec.at_ d cs ix n)
    (h : execAtn env fc fe start L dfa s0 = some (res, L', dfa')) :
    Kept L L' ∧ ∃ m, n ≤ m ∧ m ≤ cs.length ∧ L'.cur = LexSpec.at_ d cs ix m := by
  simp only [execAtn, hL] at h
  obtain ⟨cap, hcap, h⟩ := Option.bind_eq_some_iff.mp h
  rw [la_at R hn, Option.bind_some] at h
  obtain ⟨x, hx, h⟩ := Option.bind_eq_some_iff.mp h
  have hp := capture_ok hcap (a := n) (fun p hp => by simp at hp) (Nat.le_refl _)
  obtain ⟨m, h1, h2, h3, h4, h5⟩ := execLoop_pos R fe (Nat.le_refl _) hn hp hx
  simp only [Option.map_eq_some_iff] at h
  obtain ⟨⟨res', L1⟩, hf, h⟩ := h
  injection h with hr h; injection h with hl hd
  subst hr hl
  obtain ⟨hk, k, hk1, hk2, hk3, _⟩ := failOrAccept_pos ht.action h1 h3 h5 hf
  exact ⟨hk, k, hk1, by omega, hk3⟩

theorem matchToken_pos (R : Reads d cs ix sl) {env : Env D} (ht : Tame env) {fc fe : Nat}
    {L L' : Lex D} {dfas dfas' : List DFA} {res : MatchRes} {n : Nat} (hn : n ≤ cs.length)
    (hL : L.cur = LexSpec.at_ d cs ix n)
    (h : matchToken env fc fe L dfas = some (res, L', dfas')) :
    Kept L L' ∧ ∃ m, n ≤ m ∧ m ≤ cs.length ∧ L'.cur = LexSpec.at_ d cs ix m := by
  have same : ∀ L : Lex D, L.cur = LexSpec.at_ d cs ix n →
      Kept L L ∧ ∃ m, n ≤ m ∧ m ≤ cs.length ∧ L.cur = LexSpec.at_ d cs ix m :=
    fun L hL => ⟨⟨rfl, rfl, rfl, rfl, rfl, rfl, rfl⟩, n, Nat.le_refl _, hn, hL⟩
  simp only [matchToken] at h
  split at h
  · injection h with h; injection h with _ h; injection h with h _; subst h; exact same L hL
  · rename_i dfa hdfa
    simp only [Option.map_eq_some_iff] at h
    obtain ⟨⟨res', L1, d1⟩, hm, h⟩ := h
    injection h with h0 h; injection h with h _; subst h0 h
    split at hm
    · simp only [matchAtn] at hm
      split at hm
      · injection hm with h; injection h with _ h; injection h with h _; subst h; exact same L hL
      · obtain ⟨st, _, hm⟩ := Option.bind_eq_some_iff.mp hm
        obtain ⟨s0, _, hm⟩ := Option.bind_eq_some_iff.mp hm
        obtain ⟨r, _, hm⟩ := Option.bind_eq_some_iff.mp hm
        exact execAtn_pos R ht hn hL hm
    · exact execAtn_pos R ht hn hL hm

end Antlr.LexProps

import Verif.Prelude
import Verif.TokenStream.Spec

/-! Helper lemmas for token streams. -/

namespace Antlr
open TokenSpec

/-- The buffered tokens `bs .. bs+len-1`. -/
def window (src : Source) (bs len : Nat) : List Tok := (List.range' bs len).map (tok src)

/-- Canonical form of a stream state. -/
def st (src : Source) (m : Int) (bs len p : Nat) : TS :=
  ⟨src, bs + len, window src bs len, (bs + p : Nat), m, p⟩

/-- Constraints of reachable canonical states. -/
def OK (src : Source) (bs len p : Nat) : Prop :=
  bs + len ≤ eofIdx src + 1 ∧ (p < len ∨ (bs = 0 ∧ len = 0 ∧ p = 0))

@[simp] theorem window_length (src : Source) (bs len : Nat) : (window src bs len).length = len := by
  simp [window]

theorem window_getElem? (src : Source) (bs len i : Nat) :
    (window src bs len)[i]? = if i < len then some (tok src (bs + i)) else none := by
  simp only [window, List.getElem?_map]
  by_cases h : i < len
  · rw [if_pos h, List.getElem?_range' h]; simp
  · rw [if_neg h, List.getElem?_eq_none (by simp; omega)]; rfl

theorem window_succ (src : Source) (bs len : Nat) :
    window src bs (len + 1) = window src bs len ++ [tok src (bs + len)] := by
  simp [window, List.range'_concat]

theorem window_drop (src : Source) (bs len p : Nat) (h : p ≤ len) :
    (window src bs len).drop p = window src (bs + p) (len - p) := by
  simp [window, List.drop_range', ← List.map_drop]

theorem next_eof_iff (src : Source) (n : Nat) :
    (src.next n).ttype = TOKEN_EOF ↔ eofIdx src ≤ n := by
  simp only [Source.next, eofIdx]
  by_cases h : n < src.pre.length
  · rw [List.getElem?_eq_getElem h]
    have := src.pre_ne _ (List.getElem_mem h)
    simp [this]; omega
  · rw [List.getElem?_eq_none (by omega)]
    simp [src.eof_eq]; omega

theorem tok_eof_iff (src : Source) (n : Nat) : (tok src n).ttype = TOKEN_EOF ↔ eofIdx src ≤ n :=
  next_eof_iff src n

theorem lastIsEof_st (src : Source) (m : Int) (bs len p : Nat) :
    (st src m bs len p).lastIsEof = decide (0 < len ∧ eofIdx src ≤ bs + len - 1) := by
  simp only [TS.lastIsEof, st, List.getLast?_eq_getElem?, window_length, window_getElem?]
  by_cases h : 0 < len
  · rw [if_pos (by omega)]
    have := tok_eof_iff src (bs + (len - 1))
    have e : bs + (len - 1) = bs + len - 1 := by omega
    rw [e] at this ⊢
    by_cases h2 : eofIdx src ≤ bs + len - 1
    · simp [h, h2, this.mpr h2]
    · simp [h2]; intro h3; exact absurd (this.mp h3) h2
  · rw [if_neg (by omega)]; simp; omega

theorem fetch_st (src : Source) (m : Int) (bs len p : Nat) :
    (st src m bs len p).fetch = st src m bs (len + 1) p := by
  simp only [TS.fetch, st, window_succ, TS.bufferStart, window_length, tok, Nat.add_assoc,
    TS.mk.injEq, true_and, and_true]
  congr 3
  omega

theorem fill_st (src : Source) (m : Int) (n bs len p : Nat) (h : OK src bs len p) :
    TS.fill n (st src m bs len p) =
      (st src m bs (min (len + n) (eofIdx src + 1 - bs)) p,
        min (len + n) (eofIdx src + 1 - bs) - len) := by
  unfold OK at h
  have key : ∀ n len, bs + len ≤ eofIdx src + 1 → (0 < len ∨ bs = 0) →
      TS.fill n (st src m bs len p) =
      (st src m bs (min (len + n) (eofIdx src + 1 - bs)) p,
        min (len + n) (eofIdx src + 1 - bs) - len) := by
    intro n
    induction n with
    | zero =>
      intro len h1 _
      simp only [TS.fill, Nat.add_zero]
      have : min len (eofIdx src + 1 - bs) = len := by omega
      rw [this]; simp
    | succ n ih =>
      intro len h1 h2
      simp only [TS.fill, lastIsEof_st, decide_eq_true_eq]
      by_cases he : 0 < len ∧ eofIdx src ≤ bs + len - 1
      · rw [if_pos he]
        have : min (len + (n + 1)) (eofIdx src + 1 - bs) = len := by omega
        rw [this]; simp
      · rw [if_neg he, fetch_st, ih (len + 1) (by omega) (by omega)]
        have : min (len + 1 + n) (eofIdx src + 1 - bs) = min (len + (n + 1)) (eofIdx src + 1 - bs) := by
          omega
        rw [this]
        simp only [Prod.mk.injEq, true_and]
        omega
  exact key n len (by omega) (by omega)

/-- New buffer length after `sync(k)`. -/
def syncLen (src : Source) (bs len want : Nat) : Nat :=
  max len (min want (eofIdx src + 1 - bs))

theorem sync_st (src : Source) (m : Int) (bs len p : Nat) (k : Int) (h : OK src bs len p) :
    (st src m bs len p).sync k = st src m bs (syncLen src bs len (p + k).toNat) p := by
  have h' := h
  unfold OK at h'
  rw [TS.sync]
  simp only [st, window_length]
  by_cases hn : (p : Int) + k - 1 - len + 1 > 0
  · rw [if_pos hn]
    have := fill_st src m ((p : Int) + k - 1 - len + 1).toNat bs len p h
    simp only [st] at this
    rw [this]
    simp only []
    have e : min (len + ((p : Int) + k - 1 - len + 1).toNat) (eofIdx src + 1 - bs) =
      syncLen src bs len ((p : Int) + k).toNat := by
      unfold syncLen; omega
    rw [e]
  · rw [if_neg hn]
    have e : syncLen src bs len ((p : Int) + k).toNat = len := by
      unfold syncLen; omega
    rw [e]

theorem OK_sync {src : Source} {bs len p : Nat} (h : OK src bs len p) (w : Nat) :
    OK src bs (syncLen src bs len w) p ∨ (bs = 0 ∧ p = 0 ∧ 0 < w) := by
  unfold OK syncLen at *; omega

theorem OK_sync' {src : Source} {bs len p : Nat} (h : OK src bs len p) (w : Nat) :
    OK src bs (syncLen src bs len w) p := by
  unfold OK syncLen at *; omega

theorem getAt_st (src : Source) (m : Int) (bs len p i : Nat) :
    (st src m bs len p).getAt i = if i < len then some (tok src (bs + i)) else none := by
  simp only [TS.getAt, st]
  rw [if_neg (by omega), Int.toNat_natCast, window_getElem?]

theorem lt_st (src : Source) (m : Int) (bs len p k : Nat) (hk : 1 ≤ k) (h : OK src bs len p) :
    (st src m bs len p).lt k =
      some (if bs + p + k - 1 ≤ eofIdx src then some (tok src (bs + p + k - 1)) else none,
        st src m bs (syncLen src bs len (p + k)) p) := by
  rw [TS.lt, if_neg (by omega)]
  simp only [sync_st src m bs len p k h]
  have e0 : ((p : Int) + (k : Int)).toNat = p + k := by omega
  rw [e0]
  have e : (st src m bs (syncLen src bs len (p + k)) p).p + (k : Int) - 1 = ((p + k - 1 : Nat) : Int) := by
    simp only [st]; omega
  rw [e, getAt_st]
  have e2 : bs + (p + k - 1) = bs + p + k - 1 := by omega
  rw [e2]
  unfold OK at h
  by_cases hh : bs + p + k - 1 ≤ eofIdx src
  · rw [if_pos hh, if_pos (by unfold syncLen; omega)]
  · rw [if_neg hh, if_neg (by unfold syncLen; omega)]

theorem la_one_st (src : Source) (m : Int) (bs len p : Nat) (h : OK src bs len p) :
    (st src m bs len p).la 1 = some ((tok src (bs + p)).ttype,
        st src m bs (syncLen src bs len (p + 1)) p) := by
  have := lt_st src m bs len p 1 (by omega) h
  simp only [Int.ofNat_one, Nat.add_sub_cancel] at this
  rw [TS.la, this]
  unfold OK at h
  rw [if_pos (by omega)]
  simp

theorem consume_st (src : Source) (m : Int) (bs len p : Nat) (h : OK src bs len p) :
    (st src m bs len p).consume =
      if bs + p < eofIdx src then some (st src m bs (syncLen src bs len (p + 2)) (p + 1)) else none := by
  rw [TS.consume, la_one_st src m bs len p h]
  simp only [tok_eof_iff]
  have h' := h
  unfold OK at h'
  by_cases he : bs + p < eofIdx src
  · rw [if_neg (by omega), if_pos he]
    have hlen : ¬ ((p : Int) = (syncLen src bs len (p + 1) : Nat) ∧ m = 0) := by
      unfold syncLen; omega
    simp only [st, window_length]
    rw [if_neg hlen]
    have ok2 : OK src bs (syncLen src bs len (p + 1)) (p + 1) ∨
      syncLen src bs len (p + 1) = p + 1 := by unfold OK syncLen; omega
    -- sync after the move
    have hs : TS.sync ⟨src, bs + syncLen src bs len (p + 1), window src bs (syncLen src bs len (p + 1)),
        ((bs + p : Nat) : Int) + 1, m, (p : Int) + 1⟩ 1 =
        st src m bs (syncLen src bs len (p + 2)) (p + 1) := by
      rw [TS.sync]
      simp only [window_length]
      by_cases hn : (p : Int) + 1 + 1 - 1 - (syncLen src bs len (p + 1) : Nat) + 1 > 0
      · rw [if_pos hn]
        have hl : syncLen src bs len (p + 1) = p + 1 := by unfold syncLen at *; omega
        have e1 : ((p : Int) + 1 + 1 - 1 - (syncLen src bs len (p + 1) : Nat) + 1).toNat = 1 := by omega
        rw [e1, hl]
        have e2 : (TS.mk src (bs + (p + 1)) (window src bs (p + 1)) (((bs + p : Nat) : Int) + 1) m
          ((p : Int) + 1)) = st src m bs (p + 1) (p + 1) := by
          simp only [st]; rfl
        rw [e2]
        simp only [TS.fill, lastIsEof_st, decide_eq_true_eq]
        rw [if_neg (by omega), fetch_st]
        have e3 : syncLen src bs len (p + 2) = p + 2 := by unfold syncLen at *; omega
        rw [e3]
      · rw [if_neg hn]
        have e3 : syncLen src bs len (p + 2) = syncLen src bs len (p + 1) := by
          unfold syncLen at *; omega
        rw [e3]; simp only [st]; rfl
    rw [hs]; rfl
  · rw [if_pos (by omega), if_neg he]

theorem OK_consume {src : Source} {bs len p : Nat} (h : OK src bs len p) (he : bs + p < eofIdx src) :
    OK src bs (syncLen src bs len (p + 2)) (p + 1) := by
  unfold OK syncLen at *; omega

theorem release_st (src : Source) (m : Int) (bs len p : Nat) (mk : Int) (h : OK src bs len p) :
    (st src m bs len p).release mk =
      if mk ≠ -m then none
      else if m = 1 then some (st src 0 (bs + p) (len - p) 0) else some (st src (m - 1) bs len p) := by
  rw [TS.release]
  simp only [st, window_length]
  unfold OK at h
  by_cases hm : mk ≠ -m
  · rw [if_pos hm, if_pos hm]
  · rw [if_neg hm, if_neg hm]
    by_cases h1 : m = 1
    · subst h1
      simp only [Int.sub_self, true_and, ↓reduceIte]
      by_cases hp : p = 0
      · subst hp; simp
      · rw [if_pos (by omega), if_pos (by omega)]
        rw [Int.toNat_natCast, window_drop src bs len p (by omega)]
        simp only [Option.some.injEq, TS.mk.injEq, true_and, and_true]
        refine ⟨by omega, rfl, rfl⟩
    · rw [if_neg (by omega), if_neg h1]

theorem OK_release {src : Source} {bs len p : Nat} (h : OK src bs len p) :
    OK src (bs + p) (len - p) 0 := by
  unfold OK at *; omega

theorem seek_st (src : Source) (m : Int) (bs len p : Nat) (i : Int) (h : OK src bs len p) :
    (st src m bs len p).seek i =
      if i = (bs + p : Nat) then some (st src m bs len p)
      else if (bs : Int) ≤ i ∧ i < (bs + len : Nat) then some (st src m bs len (i - bs).toNat)
      else none := by
  have h' := h
  unfold OK at h'
  have hcur : (st src m bs len p).cur = (bs + p : Nat) := rfl
  rw [TS.seek]
  by_cases h1 : i = (bs + p : Nat)
  · rw [if_pos (by rw [hcur, h1]), if_pos h1]
  rw [if_neg (by rw [hcur]; exact fun e => h1 e.symm), if_neg h1]
  by_cases h2 : i > (bs + p : Nat)
  · simp only [hcur]
    rw [if_pos h2]
    have hs := sync_st src m bs len p (i - (bs + p : Nat)) h
    rw [hs]
    have hb : ∀ len', (st src m bs len' p).bufferStart = bs := by
      intro len'; simp only [TS.bufferStart, st]; omega
    have hsz : ∀ len', (st src m bs len' p).size = len' := by
      intro len'; simp [TS.size, st]
    simp only [hb, hsz]
    by_cases h3 : (bs : Int) ≤ i ∧ i < (bs + len : Nat)
    · rw [if_pos h3]
      have e : syncLen src bs len ((p : Int) + (i - (bs + p : Nat))).toNat = len := by
        unfold syncLen; omega
      rw [e]
      have e2 : min i ((bs : Int) + len + 1) = i := by omega
      rw [e2, if_neg (by simp only [st, window_length]; omega)]
      simp only [st, Option.some.injEq, TS.mk.injEq, true_and]
      omega
    · rw [if_neg h3, if_pos (by simp only [st, window_length]; unfold syncLen; omega)]
  · simp only [hcur]
    rw [if_neg h2]
    have hb : (st src m bs len p).bufferStart = bs := by
      simp only [TS.bufferStart, st]; omega
    simp only [hb]
    by_cases h3 : (bs : Int) ≤ i ∧ i < (bs + len : Nat)
    · rw [if_pos h3, if_neg (by simp only [st, window_length]; omega)]
      simp only [st, Option.some.injEq, TS.mk.injEq, true_and]
      omega
    · rw [if_neg h3, if_pos (by simp only [st, window_length]; omega)]

end Antlr

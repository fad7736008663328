import Verif.TokenStream.Lemmas

/-! Helper lemmas for `CommonTokenStream`. -/

namespace Antlr
open TokenSpec

/-- Canonical state of a common token stream: nothing is ever dropped from the buffer. -/
def cst (src : Source) (c : Int) (len p : Nat) : CTS := ⟨st src 1 0 len p, c⟩

def COK (src : Source) (len p : Nat) : Prop := p < len ∧ len ≤ eofIdx src + 1

theorem COK.ok {src : Source} {len p : Nat} (h : COK src len p) : OK src 0 len p := by
  unfold COK at h; unfold OK; omega

theorem csync_nat (src : Source) (c : Int) (len p i : Nat) (h : COK src len p) :
    (cst src c len p).sync i =
      (decide (i ≤ eofIdx src), cst src c (max len (min (i + 1) (eofIdx src + 1))) p) := by
  have hok := h.ok
  unfold COK at h
  have hsz : (cst src c len p).base.size = len := by simp [TS.size, cst, st]
  rw [CTS.sync, hsz]
  simp only []
  by_cases hn : (i : Int) - len + 1 > 0
  · rw [if_pos hn]
    have := fill_st src 1 ((i : Int) - len + 1).toNat 0 len p hok
    simp only [cst, this]
    have e : min (len + ((i : Int) - len + 1).toNat) (eofIdx src + 1 - 0) =
      max len (min (i + 1) (eofIdx src + 1)) := by omega
    rw [e]
    simp only [Prod.mk.injEq, and_true]
    rw [decide_eq_decide]; omega
  · rw [if_neg hn]
    have e : max len (min (i + 1) (eofIdx src + 1)) = len := by omega
    rw [e]
    simp only [Prod.mk.injEq, and_true]
    have : i ≤ eofIdx src := by omega
    simp [this]

theorem csync_lt (src : Source) (c : Int) (len p : Nat) (i : Int) (h : i < len) :
    (cst src c len p).sync i = (true, cst src c len p) := by
  have hsz : (cst src c len p).base.size = len := by simp [TS.size, cst, st]
  rw [CTS.sync, hsz]
  simp only []
  rw [if_neg (by omega)]

/-- The next visible position at or after `i`. -/
def nextVis (src : Source) (c : Int) (i : Nat) : Nat :=
  if eofIdx src ≤ i then eofIdx src
  else if (src.next i).channel = c then i
  else nextVis src c (i + 1)
termination_by eofIdx src - i

theorem nextVis_spec (src : Source) (c : Int) (i : Nat) :
    Visible src c (nextVis src c i) ∧ nextVis src c i ≤ eofIdx src ∧
    (i ≤ eofIdx src → i ≤ nextVis src c i) ∧
    (∀ k, i ≤ k → k < nextVis src c i → ¬ Visible src c k) := by
  induction hm : eofIdx src - i using Nat.strongRecOn generalizing i with
  | _ m ih =>
    rw [nextVis]
    by_cases h1 : eofIdx src ≤ i
    · rw [if_pos h1]
      exact ⟨.inl rfl, Nat.le_refl _, fun h => h, fun k h2 h3 => by omega⟩
    · rw [if_neg h1]
      by_cases h2 : (src.next i).channel = c
      · rw [if_pos h2]
        exact ⟨.inr ⟨by omega, h2⟩, by omega, fun _ => Nat.le_refl _, fun k h3 h4 => by omega⟩
      · rw [if_neg h2]
        obtain ⟨a, b, d, e⟩ := ih _ (by omega) (i + 1) rfl
        refine ⟨a, b, fun _ => by have := d (by omega); omega, ?_⟩
        intro k hk1 hk2
        by_cases hk : k = i
        · subst hk
          rintro (h | h)
          · omega
          · exact h2 h.2
        · exact e k (by omega) hk2

theorem nextVis_unique {src : Source} {c : Int} {i j : Nat} (h1 : Visible src c j) (h2 : i ≤ j)
    (h3 : ∀ k, i ≤ k → k < j → ¬ Visible src c k) : nextVis src c i = j := by
  obtain ⟨a, b, d, e⟩ := nextVis_spec src c i
  have hj : j ≤ eofIdx src := by rcases h1 with h | h <;> omega
  rcases Nat.lt_trichotomy (nextVis src c i) j with h | h | h
  · exact absurd a (h3 _ (d (by omega)) h)
  · exact h
  · exact absurd h1 (e _ h2 h)

theorem nextLoop_fwd (src : Source) (c : Int) (len p i fuel : Nat) (h : COK src len p) (hi : i < len)
    (hf : eofIdx src - i < fuel) :
    CTS.nextLoop c 1 fuel (cst src c len p) i =
      some (((nextVis src c i : Nat) : Int), cst src c (max len (nextVis src c i + 1)) p) := by
  induction fuel generalizing i len with
  | zero => omega
  | succ fuel ih =>
    have hget : (cst src c len p).base.getAt (i : Int) = some (tok src i) := by
      have := getAt_st src 1 0 len p i
      rw [if_pos hi, Nat.zero_add] at this
      exact this
    rw [CTS.nextLoop, hget, Option.bind_some]
    have hch : (tok src i).channel = (src.next i).channel := rfl
    rw [hch]
    simp only [tok_eof_iff]
    unfold COK at h
    by_cases h1 : eofIdx src ≤ i
    · have e : i = eofIdx src := by omega
      have hv : nextVis src c i = i := by rw [nextVis, if_pos h1, e]
      have e2 : max len (i + 1) = len := by omega
      rw [hv, e2]
      by_cases h2 : (src.next i).channel = c
      · rw [if_neg (by simpa using h2)]
      · rw [if_pos h2, if_pos (.inl h1)]
    · by_cases h2 : (src.next i).channel = c
      · rw [if_neg (by simpa using h2)]
        have hv : nextVis src c i = i := by rw [nextVis, if_neg h1, if_pos h2]
        have e2 : max len (i + 1) = len := by omega
        rw [hv, e2]
      · rw [if_pos h2, if_neg (by omega)]
        have hv : nextVis src c i = nextVis src c (i + 1) := by
          conv => lhs; rw [nextVis, if_neg h1, if_neg h2]
        have e3 : (i : Int) + 1 = ((i + 1 : Nat) : Int) := by omega
        rw [hv, e3, csync_nat src c len p (i + 1) (by unfold COK; omega)]
        simp only []
        rw [ih _ (i + 1) (by unfold COK; omega) (by omega) (by omega)]
        obtain ⟨_, _, d, _⟩ := nextVis_spec src c (i + 1)
        have := d (by omega)
        congr 3; omega

theorem next_fwd (src : Source) (c : Int) (len p i : Nat) (h : COK src len p) :
    (cst src c len p).nextTokenOnChannel i c 1 =
      some (((nextVis src c i : Nat) : Int), cst src c (max len (nextVis src c i + 1)) p) := by
  have h' := h
  unfold COK at h'
  rw [CTS.nextTokenOnChannel, csync_nat src c len p i h]
  have hsz : ∀ l, (cst src c l p).base.size = l := by intro l; simp [TS.size, cst, st]
  simp only [hsz]
  by_cases h1 : i ≤ eofIdx src
  · rw [if_neg (by omega)]
    have hpre : (cst src c (max len (min (i + 1) (eofIdx src + 1))) p).base.src.pre.length =
      eofIdx src := rfl
    rw [hpre, nextLoop_fwd _ _ _ _ _ _ (by unfold COK; omega) (by omega) (by omega)]
    obtain ⟨_, _, d, _⟩ := nextVis_spec src c i
    have := d h1
    congr 3; omega
  · rw [if_pos (by omega)]
    have hv : nextVis src c i = eofIdx src := by rw [nextVis, if_pos (by omega)]
    rw [hv]
    congr 2
    · omega
    · congr 1; omega

theorem consume_cst (src : Source) (c : Int) (len p : Nat) (h : COK src len p) :
    (cst src c len p).consume =
      if p < eofIdx src then
        some (cst src c (max len (nextVis src c (p + 1) + 1)) (nextVis src c (p + 1)))
      else none := by
  have h' := h
  unfold COK at h'
  rw [CTS.consume]
  have hb : (cst src c len p).base = st src 1 0 len p := rfl
  rw [hb, consume_st src 1 0 len p h.ok]
  simp only [Nat.zero_add]
  by_cases he : p < eofIdx src
  · rw [if_pos he, if_pos he, Option.bind_some]
    have e1 : syncLen src 0 len (p + 2) = max len (p + 2) := by unfold syncLen; omega
    have e2 : ({ cst src c len p with base := st src 1 0 (syncLen src 0 len (p + 2)) (p + 1) } : CTS) =
      cst src c (max len (p + 2)) (p + 1) := by rw [e1]; rfl
    have e3 : (st src 1 0 (syncLen src 0 len (p + 2)) (p + 1)).p = ((p + 1 : Nat) : Int) := rfl
    have e4 : (cst src c len p).channel = c := rfl
    rw [e2, e3, e4, next_fwd src c _ _ (p + 1) (by unfold COK; omega), Option.bind_some]
    obtain ⟨_, b, d, _⟩ := nextVis_spec src c (p + 1)
    have := d (by omega)
    generalize nextVis src c (p + 1) = j at *
    have e5 : max (max len (p + 2)) (j + 1) = max len (j + 1) := by omega
    rw [e5]
    have hs := seek_st src 1 0 (max len (j + 1)) (p + 1) (j : Int) (by unfold OK; omega)
    have e6 : (cst src c (max len (j + 1)) (p + 1)).base = st src 1 0 (max len (j + 1)) (p + 1) := rfl
    simp only [e6, hs]
    by_cases hj : (j : Int) = (0 + (p + 1) : Nat)
    · rw [if_pos hj]
      have : j = p + 1 := by omega
      subst this; rfl
    · rw [if_neg hj, if_pos (by omega)]
      have : ((j : Int) - ((0 : Nat) : Int)).toNat = j := by omega
      rw [this]; rfl
  · rw [if_neg he, if_neg he]; rfl

/-- `k` steps of "move to the next visible position, stay at EOF". -/
def stepVis (src : Source) (c : Int) : Nat → Nat → Nat
  | 0, i => i
  | k + 1, i => stepVis src c k (if i < eofIdx src then nextVis src c (i + 1) else i)

theorem stepVis_le (src : Source) (c : Int) (k i : Nat) (h : i ≤ eofIdx src) :
    i ≤ stepVis src c k i ∧ stepVis src c k i ≤ eofIdx src := by
  induction k generalizing i with
  | zero => exact ⟨Nat.le_refl _, h⟩
  | succ k ih =>
    simp only [stepVis]
    split
    · obtain ⟨_, b, d, _⟩ := nextVis_spec src c (i + 1)
      have := d (by omega)
      have := ih _ b
      omega
    · exact ih i h

theorem ltLoop_cst (src : Source) (c : Int) (k len p i : Nat) (h : COK src len p) (hi : i < len) :
    ∃ len', len ≤ len' ∧ COK src len' p ∧ stepVis src c k i < len' ∧
      CTS.ltLoop k (cst src c len p) i = some (((stepVis src c k i : Nat) : Int), cst src c len' p) := by
  induction k generalizing i len with
  | zero => exact ⟨len, Nat.le_refl _, h, hi, rfl⟩
  | succ k ih =>
    have e : (i : Int) + 1 = ((i + 1 : Nat) : Int) := by omega
    have h' := h
    unfold COK at h'
    rw [CTS.ltLoop, e, csync_nat src c len p (i + 1) h, stepVis]
    by_cases he : i < eofIdx src
    · rw [if_pos he, if_pos (by simp only [decide_eq_true_eq]; omega)]
      simp only []
      have ech : (cst src c len p).channel = c := rfl
      rw [ech, next_fwd _ _ _ _ _ (by unfold COK; omega), Option.bind_some]
      obtain ⟨_, b, d, _⟩ := nextVis_spec src c (i + 1)
      have := d (by omega)
      obtain ⟨len', h1, h2, h3, h4⟩ := ih (max (max len (min (i + 1 + 1) (eofIdx src + 1)))
        (nextVis src c (i + 1) + 1)) (nextVis src c (i + 1)) (by unfold COK; omega) (by omega)
      exact ⟨len', by omega, h2, h3, h4⟩
    · rw [if_neg he, if_neg (by simp only [decide_eq_true_eq]; omega)]
      simp only []
      have e2 : max len (min (i + 1 + 1) (eofIdx src + 1)) = len := by omega
      rw [e2]
      exact ih len i h hi

theorem cgetAt (src : Source) (c : Int) (len p i : Nat) (h : i < len) :
    (cst src c len p).base.getAt (i : Int) = some (tok src i) := by
  have := getAt_st src 1 0 len p i
  rw [if_pos h, Nat.zero_add] at this
  exact this

theorem lt_cst (src : Source) (c : Int) (len p k : Nat) (hk : 1 ≤ k) (h : COK src len p) :
    ∃ len', len ≤ len' ∧ COK src len' p ∧
      (cst src c len p).lt k = some (some (tok src (stepVis src c (k - 1) p)), cst src c len' p) := by
  have h' := h
  unfold COK at h'
  by_cases h1 : k = 1
  · subst h1
    refine ⟨len, Nat.le_refl _, h, ?_⟩
    rw [CTS.lt, if_pos (by omega)]
    have : (cst src c len p).base.p = (p : Int) := rfl
    rw [this, cgetAt _ _ _ _ _ h'.1]
    rfl
  · obtain ⟨len', a, b, d, e⟩ := ltLoop_cst src c (k - 1) len p p h h'.1
    refine ⟨len', a, b, ?_⟩
    rw [CTS.lt, if_neg (by omega), if_neg (by omega), if_neg (by omega)]
    have : (cst src c len p).base.p = (p : Int) := rfl
    have e2 : ((k : Int) - 1).toNat = k - 1 := by omega
    rw [this, e2, e, Option.map_some]
    simp only []
    rw [cgetAt _ _ _ _ _ d]

/-! ### Backwards -/

/-- What the backward loop computes, from the source alone. -/
def prevLoop (src : Source) (c : Int) : Nat → Int → Option Int
  | 0, _ => none
  | fuel + 1, i =>
    if i < 0 then none
    else if (src.next i.toNat).channel ≠ c then
      if eofIdx src ≤ i.toNat then some i else prevLoop src c fuel (i - 1)
    else some i

theorem nextLoop_bwd (src : Source) (c : Int) (len p fuel : Nat) (i : Int) (hi : i < len) :
    CTS.nextLoop c (-1) fuel (cst src c len p) i =
      (prevLoop src c fuel i).map fun j => (j, cst src c len p) := by
  induction fuel generalizing i with
  | zero => rfl
  | succ fuel ih =>
    rw [CTS.nextLoop, prevLoop]
    by_cases h0 : i < 0
    · rw [if_pos h0]
      have : (cst src c len p).base.getAt i = none := by simp [TS.getAt, h0]
      rw [this]; rfl
    · rw [if_neg h0]
      have e : i = ((i.toNat : Nat) : Int) := by omega
      have hget : (cst src c len p).base.getAt i = some (tok src i.toNat) := by
        conv => lhs; rw [e, cgetAt _ _ _ _ _ (by omega)]
      rw [hget, Option.bind_some]
      have hch : (tok src i.toNat).channel = (src.next i.toNat).channel := rfl
      rw [hch]
      simp only [tok_eof_iff]
      by_cases h2 : (src.next i.toNat).channel = c
      · rw [if_neg (by simpa using h2), if_neg (by simpa using h2)]; rfl
      · rw [if_pos h2, if_pos h2]
        by_cases h3 : eofIdx src ≤ i.toNat
        · rw [if_pos (.inl h3), if_pos h3]; rfl
        · rw [if_neg (by omega), if_neg h3]
          have e4 : i + -1 = i - 1 := by omega
          rw [e4, csync_lt _ _ _ _ _ (by omega)]
          exact ih (i - 1) (by omega)

/-- What `lb`'s loop computes. -/
def lbSpec (src : Source) (c : Int) : Nat → Int → Option Int
  | 0, i => some i
  | n + 1, i =>
    if i > 0 then (prevLoop src c (eofIdx src + 2) (i - 1)).bind (lbSpec src c n) else some i

theorem prevLoop_le (src : Source) (c : Int) (fuel : Nat) (i j : Int)
    (h : prevLoop src c fuel i = some j) : 0 ≤ j ∧ j ≤ i := by
  induction fuel generalizing i with
  | zero => simp [prevLoop] at h
  | succ fuel ih =>
    rw [prevLoop] at h
    split at h
    · simp at h
    · split at h
      · split at h
        · simp at h; omega
        · have := ih _ h; omega
      · simp at h; omega

theorem lbLoop_cst (src : Source) (c : Int) (n len p : Nat) (i : Int) (hi : i < len) :
    CTS.lbLoop n (cst src c len p) i = (lbSpec src c n i).map fun j => (j, cst src c len p) := by
  induction n generalizing i with
  | zero => rfl
  | succ n ih =>
    rw [CTS.lbLoop, lbSpec]
    by_cases h : i > 0
    · rw [if_pos h, if_pos h, CTS.nextTokenOnChannel, csync_lt _ _ _ _ _ (by omega)]
      have hsz : (cst src c len p).base.size = len := by simp [TS.size, cst, st]
      simp only [hsz]
      rw [if_neg (by omega)]
      have hpre : (cst src c len p).base.src.pre.length = eofIdx src := rfl
      have hch : (cst src c len p).channel = c := rfl
      rw [hpre, hch, nextLoop_bwd _ _ _ _ _ _ (by omega)]
      cases hp : prevLoop src c (eofIdx src + 2) (i - 1) with
      | none => rfl
      | some j =>
        have := prevLoop_le _ _ _ _ _ hp
        simp only [Option.map_some, Option.bind_some]
        exact ih j (by omega)
    · rw [if_neg h, if_neg h]; rfl

theorem lbSpec_le (src : Source) (c : Int) (n : Nat) (i j : Int) (hi : 0 ≤ i)
    (h : lbSpec src c n i = some j) : 0 ≤ j ∧ j ≤ i := by
  induction n generalizing i with
  | zero => simp [lbSpec] at h; omega
  | succ n ih =>
    rw [lbSpec] at h
    split at h
    · rw [Option.bind_eq_some_iff] at h
      obtain ⟨q, h1, h2⟩ := h
      have h3 := prevLoop_le _ _ _ _ _ h1
      have := ih _ h3.1 h2
      omega
    · simp at h; omega

/-- `lt(-k)` computed from the source alone. -/
theorem lt_neg_cst (src : Source) (c : Int) (len p k : Nat) (hk : 1 ≤ k) (h : COK src len p) :
    (cst src c len p).lt (-(k : Int)) =
      if p < k then some (none, cst src c len p)
      else (lbSpec src c k p).map fun j => (some (tok src j.toNat), cst src c len p) := by
  unfold COK at h
  rw [CTS.lt, if_neg (by omega), if_neg (by omega), if_pos (by omega), CTS.lb]
  have hp : (cst src c len p).base.p = (p : Int) := rfl
  rw [hp]
  by_cases h1 : p < k
  · rw [if_pos (by omega), if_pos h1]
  · rw [if_neg (by omega), if_neg h1]
    have e : (- -(k : Int)).toNat = k := by omega
    rw [e, lbLoop_cst _ _ _ _ _ _ (by omega)]
    cases hl : lbSpec src c k p with
    | none => rfl
    | some j =>
      have := lbSpec_le _ _ _ _ _ (by omega) hl
      simp only [Option.map_some]
      rw [if_neg (by omega)]
      have e2 : j = ((j.toNat : Nat) : Int) := by omega
      conv => lhs; rw [e2, cgetAt _ _ _ _ _ (by omega)]

theorem seek_cst (src : Source) (c : Int) (len p q : Nat) (h : COK src len p) (hq : q < len) :
    (cst src c len p).seek q = some (cst src c len q) := by
  have := seek_st src 1 0 len p q h.ok
  have hb : (cst src c len p).base = st src 1 0 len p := rfl
  rw [CTS.seek, hb, this]
  by_cases h1 : (q : Int) = (0 + p : Nat)
  · have : q = p := by omega
    rw [if_pos h1, this]; rfl
  · rw [if_neg h1, if_pos (by omega)]
    have : ((q : Int) - ((0 : Nat) : Int)).toNat = q := by omega
    rw [this]; rfl

theorem withChannel_cst (src : Source) (c : Int) : CTS.withChannel src c = cst src c 1 0 := by
  have : (⟨TS.newBuffered src, c⟩ : CTS) = cst src c 0 0 := by
    simp [TS.newBuffered, TS.newUnbuffered, TS.mark, cst, st, window]
  rw [CTS.withChannel, this, CTS.sync]
  have hsz : (cst src c 0 0).base.size = 0 := by simp [TS.size, cst, st]
  simp only [hsz]
  rw [if_pos (by omega)]
  have hf := fill_st src 1 1 0 0 0 (by simp [OK])
  have e1 : (0 - 0 + 1 : Int).toNat = 1 := rfl
  have hb : (cst src c 0 0).base = st src 1 0 0 0 := rfl
  simp only [e1, hb, hf]
  have e : min (0 + 1) (eofIdx src + 1 - 0) = 1 := by omega
  rw [e]; rfl

end Antlr

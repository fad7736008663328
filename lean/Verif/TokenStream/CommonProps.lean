import Verif.TokenStream.CommonLemmas

/-!
# `CommonTokenStream`: properties C16 – C19
-/

namespace Antlr.CommonProps
open Antlr TokenSpec

/-- `Reach src c s h`: the stream state `s` can be reached from a fresh stream on channel `c`; `h`
are the values `index()` had on the way.  Clients look ahead or behind, consume, take and release
marks, reset, and seek positions recorded earlier. -/
inductive Reach (src : Source) (c : Int) : CTS → List Int → Prop
  | init : Reach src c (CTS.withChannel src c) [(CTS.withChannel src c).index]
  | lt {s h k r s'} : Reach src c s h → s.lt k = some (r, s') → Reach src c s' h
  | la {s h k r s'} : Reach src c s h → s.la k = some (r, s') → Reach src c s' h
  | consume {s h s'} : Reach src c s h → s.consume = some s' → Reach src c s' (s'.index :: h)
  | mark {s h} : Reach src c s h → Reach src c s.mark.2 h
  | release {s h m} : Reach src c s h → Reach src c (s.release m) h
  | reset {s h} : Reach src c s h → Reach src c s.reset h
  | seek {s h q s'} : Reach src c s h → q ∈ h → s.seek q = some s' → Reach src c s' h

/-- Reachable states are canonical and every recorded position is still buffered. -/
theorem reach_inv {src : Source} {c : Int} {s : CTS} {h : List Int} (hr : Reach src c s h) :
    ∃ len p, s = cst src c len p ∧ COK src len p ∧ (p = 0 ∨ Visible src c p) ∧
      (p : Int) ∈ h ∧ (0 : Int) ∈ h ∧
      ∀ q ∈ h, ∃ n : Nat, q = n ∧ n < len ∧ (n = 0 ∨ Visible src c n) := by
  have ltcase : ∀ {k : Int} {len p : Nat} {r : Option Tok} {s' : CTS}, COK src len p →
      (cst src c len p).lt k = some (r, s') →
      ∃ len', len ≤ len' ∧ s' = cst src c len' p ∧ COK src len' p := by
    intro k len p r s' hok hl
    rcases Int.lt_trichotomy k 0 with hk | hk | hk
    · obtain ⟨n, rfl⟩ : ∃ n : Nat, k = -(n : Int) := ⟨(-k).toNat, by omega⟩
      rw [lt_neg_cst src c len p n (by omega) hok] at hl
      split at hl
      · simp only [Option.some.injEq, Prod.mk.injEq] at hl
        exact ⟨len, Nat.le_refl _, hl.2.symm, hok⟩
      · rw [Option.map_eq_some_iff] at hl
        obtain ⟨_, _, hl⟩ := hl
        simp only [Prod.mk.injEq] at hl
        exact ⟨len, Nat.le_refl _, hl.2.symm, hok⟩
    · subst hk; simp [CTS.lt] at hl
    · obtain ⟨n, rfl⟩ : ∃ n : Nat, k = (n : Int) := ⟨k.toNat, by omega⟩
      obtain ⟨len', h1, h2, h3⟩ := lt_cst src c len p n (by omega) hok
      rw [h3] at hl
      simp only [Option.some.injEq, Prod.mk.injEq] at hl
      exact ⟨len', h1, hl.2.symm, h2⟩
  induction hr with
  | init =>
    rw [withChannel_cst]
    refine ⟨1, 0, rfl, by unfold COK; omega, .inl rfl, ?_, ?_, ?_⟩
    · simp [CTS.index, cst, st]
    · simp [CTS.index, cst, st]
    · intro q hq
      simp only [CTS.index, cst, st, List.mem_singleton] at hq
      exact ⟨0, by omega, by omega, .inl rfl⟩
  | lt _ hl ih =>
    obtain ⟨len, p, rfl, hok, hv, h1, h0, h2⟩ := ih
    obtain ⟨len', a, rfl, b⟩ := ltcase hok hl
    refine ⟨len', p, rfl, b, hv, h1, h0, ?_⟩
    intro q hq
    obtain ⟨n, e1, e2, e3⟩ := h2 q hq
    exact ⟨n, e1, by omega, e3⟩
  | la _ hl ih =>
    obtain ⟨len, p, rfl, hok, hv, h1, h0, h2⟩ := ih
    rw [CTS.la, Option.map_eq_some_iff] at hl
    obtain ⟨⟨r, t⟩, hl, he⟩ := hl
    simp only [Prod.mk.injEq] at he
    rw [← he.2]
    obtain ⟨len', a, rfl, b⟩ := ltcase hok hl
    refine ⟨len', p, rfl, b, hv, h1, h0, ?_⟩
    intro q hq
    obtain ⟨n, e1, e2, e3⟩ := h2 q hq
    exact ⟨n, e1, by omega, e3⟩
  | consume _ hc ih =>
    obtain ⟨len, p, rfl, hok, hv, h1, h0, h2⟩ := ih
    rw [consume_cst src c len p hok] at hc
    split at hc
    · rename_i he
      simp only [Option.some.injEq] at hc
      obtain ⟨a, b, d, _⟩ := nextVis_spec src c (p + 1)
      have := d (by omega)
      have hok' := hok
      unfold COK at hok'
      rw [← hc]
      refine ⟨_, _, rfl, by unfold COK; omega, .inr a, ?_, by simp [h0], ?_⟩
      · simp [CTS.index, cst, st]
      · intro q hq
        rcases List.mem_cons.mp hq with rfl | hq
        · exact ⟨_, by simp [CTS.index, cst, st], by omega, .inr a⟩
        · obtain ⟨n, e1, e2, e3⟩ := h2 q hq
          exact ⟨n, e1, by omega, e3⟩
    · simp at hc
  | mark _ ih => exact ih
  | release _ ih => exact ih
  | reset _ ih =>
    obtain ⟨len, p, rfl, hok, hv, h1, h0, h2⟩ := ih
    refine ⟨len, 0, rfl, by unfold COK at *; omega, .inl rfl, h0, h0, h2⟩
  | seek _ hq hs ih =>
    obtain ⟨len, p, rfl, hok, hv, h1, h0, h2⟩ := ih
    obtain ⟨n, rfl, e2, e3⟩ := h2 _ hq
    rw [seek_cst src c len p n hok e2] at hs
    simp only [Option.some.injEq] at hs
    rw [← hs]
    exact ⟨len, n, rfl, by unfold COK at *; omega, e3, hq, h0, h2⟩

/-! ### C16 -/

theorem stepVis_visible (src : Source) (c : Int) (k i : Nat) (hi : i ≤ eofIdx src)
    (h : 1 ≤ k ∨ Visible src c i) : Visible src c (stepVis src c k i) := by
  induction k generalizing i with
  | zero => rcases h with h | h; · omega
            exact h
  | succ k ih =>
    rw [stepVis]
    split
    · have := nextVis_spec src c (i + 1)
      exact ih _ this.2.1 (.inr this.1)
    · exact ih _ hi (.inr (.inl (by omega)))

/-- **C16, partial.**  In every reachable state `lt(k)`, `k ≥ 1`, is EOF or a token of the stream's
channel — except that `lt(1)` at index 0 may be the first token of the source even when it is off
channel (see `C16_false`); under the extra hypothesis that the first token is on channel (or EOF) the
property holds without exception. -/
theorem C16_on_channel_partial (src : Source) (c : Int) (s : CTS) (h : List Int)
    (hr : Reach src c s h) (k : Nat) (hk : 1 ≤ k)
    (hfirst : 2 ≤ k ∨ s.index ≠ 0 ∨ (src.next 0).ttype = TOKEN_EOF ∨ (src.next 0).channel = c) :
    ∃ t s', s.lt k = some (some t, s') ∧ (t.ttype = TOKEN_EOF ∨ t.channel = c) := by
  obtain ⟨len, p, rfl, hok, hv, _⟩ := reach_inv hr
  obtain ⟨len', _, _, hl⟩ := lt_cst src c len p k hk hok
  refine ⟨_, _, hl, ?_⟩
  unfold COK at hok
  have hvis : Visible src c (stepVis src c (k - 1) p) := by
    apply stepVis_visible _ _ _ _ (by omega)
    by_cases h2 : 2 ≤ k
    · left; omega
    right
    rcases hv with hp | hv
    · subst hp
      rcases hfirst with h | h | h | h
      · omega
      · exact absurd rfl h
      · rw [next_eof_iff] at h; exact .inl (by omega)
      · by_cases h0 : eofIdx src = 0
        · exact .inl h0.symm
        · exact .inr ⟨by omega, h⟩
    · exact hv
  rcases hvis with h | h
  · left; rw [tok_eof_iff]; omega
  · right; exact h.2

/-- White space on channel 1 first, then `a`, then EOF. -/
def hiddenFirst : Source where
  pre := [{ ttype := 2, channel := 1, text := [' '] }, { ttype := 1, text := ['a'] }]
  eof := { ttype := -1 }
  pre_ne := by decide
  eof_eq := rfl

/-- **C16 is false**: a fresh stream on the default channel whose source starts with a hidden token
presents the hidden token to the parser. -/
theorem C16_false : Reach hiddenFirst 0 (CTS.withChannel hiddenFirst 0) [0] ∧
    ((CTS.withChannel hiddenFirst 0).lt 1).map (fun r => r.1.map fun t => (t.ttype, t.channel)) =
      some (some (2, 1)) :=
  ⟨Reach.init, by decide +kernel⟩

/-! ### C17 -/

/-- Reading a stream the way a parser does: `lt(1)`, stop at EOF, otherwise `consume`. -/
def readAll : Nat → CTS → Option (List Tok)
  | 0, _ => none
  | n + 1, s =>
    (s.lt 1).bind fun r => r.1.bind fun t =>
      if t.ttype = TOKEN_EOF then some [t]
      else (r.2.consume).bind fun s' => (readAll n s').map (t :: ·)

/-- Splitting off the first visible position. -/
theorem filter_visible_range (src : Source) (c : Int) (i : Nat) (hi : i ≤ eofIdx src) :
    (List.range' i (eofIdx src + 1 - i)).filter (fun n => decide (Visible src c n)) =
      nextVis src c i :: (List.range' (nextVis src c i + 1) (eofIdx src - nextVis src c i)).filter
        (fun n => decide (Visible src c n)) := by
  induction hm : eofIdx src - i generalizing i with
  | zero =>
    have e : i = eofIdx src := by omega
    subst e
    have hv : nextVis src c (eofIdx src) = eofIdx src := by rw [nextVis, if_pos (Nat.le_refl _)]
    have hvis : Visible src c (eofIdx src) := .inl rfl
    simp [hv, hvis]
  | succ m ih =>
    have e : eofIdx src + 1 - i = (eofIdx src + 1 - (i + 1)) + 1 := by omega
    rw [e, List.range'_succ]
    by_cases hc : (src.next i).channel = c
    · have hvis : Visible src c i := .inr ⟨by omega, hc⟩
      have hv : nextVis src c i = i := by rw [nextVis, if_neg (by omega), if_pos hc]
      rw [List.filter_cons_of_pos (by simpa using hvis), hv]
      congr 3
      omega
    · have hvis : ¬ Visible src c i := by
        rintro (h | h)
        · omega
        · exact hc h.2
      have hv : nextVis src c i = nextVis src c (i + 1) := by
        conv => lhs; rw [nextVis, if_neg (by omega), if_neg hc]
      rw [List.filter_cons_of_neg (by simpa using hvis), ih (i + 1) (by omega) (by omega), hv]

theorem readAll_from (src : Source) (c : Int) (n len p : Nat) (hok : COK src len p)
    (hn : eofIdx src - p < n) :
    readAll n (cst src c len p) = some (tok src p ::
      ((List.range' (p + 1) (eofIdx src - p)).filter (fun n => decide (Visible src c n))).map (tok src)) := by
  induction n generalizing len p with
  | zero => omega
  | succ n ih =>
    obtain ⟨len', h1, h2, h3⟩ := lt_cst src c len p 1 (Nat.le_refl _) hok
    simp only [Nat.sub_self, stepVis, Int.ofNat_one] at h3
    unfold COK at hok
    rw [readAll, h3]
    simp only [Option.bind_some, tok_eof_iff]
    by_cases he : eofIdx src ≤ p
    · rw [if_pos he]
      have : eofIdx src - p = 0 := by omega
      simp [this]
    · rw [if_neg he, consume_cst src c _ _ h2, if_pos (by omega), Option.bind_some]
      obtain ⟨a, b, d, _⟩ := nextVis_spec src c (p + 1)
      have := d (by omega)
      unfold COK at h2
      rw [ih _ _ (by unfold COK; omega) (by omega)]
      have e : eofIdx src - p = eofIdx src + 1 - (p + 1) := by omega
      rw [e, filter_visible_range src c (p + 1) (by omega)]
      rfl

/-- **C17** A fresh stream read to the end delivers: the first token of the source, then every later
token on the channel, in order, each once, then EOF.  If the first token is on channel (or EOF) these
are exactly the visible tokens (the exception is the defect of C16). -/
theorem C17_delivers_all (src : Source) (c : Int) :
    readAll (eofIdx src + 1) (CTS.withChannel src c) =
      some (((List.range (eofIdx src + 1)).filter
        (fun n => decide (n = 0 ∨ Visible src c n))).map (tok src)) := by
  rw [withChannel_cst, readAll_from src c _ 1 0 (by unfold COK; omega) (by omega)]
  rw [List.range_eq_range', List.range'_succ, List.filter_cons_of_pos (by simp)]
  rw [List.map_cons]
  congr 3
  apply List.filter_congr
  intro n hn
  simp only [List.mem_range'_1] at hn
  have : n ≠ 0 := by omega
  simp [this]

/-- **C17** `consume` moves to the next visible position, so the index strictly increases and no
visible token is jumped over; at EOF it panics. -/
theorem C17_consume (src : Source) (c : Int) (s : CTS) (h : List Int) (hr : Reach src c s h) :
    ∃ p : Nat, s.index = p ∧ p ≤ eofIdx src ∧
      (p = eofIdx src → s.consume = none) ∧
      (p < eofIdx src → ∃ s' p', s.consume = some s' ∧ s'.index = (p' : Nat) ∧ p < p' ∧
        Visible src c p' ∧ ∀ n, p < n → n < p' → ¬ Visible src c n) := by
  obtain ⟨len, p, rfl, hok, hv, _⟩ := reach_inv hr
  have hok' := hok
  unfold COK at hok'
  refine ⟨p, by simp [CTS.index, cst, st], by omega, ?_, ?_⟩
  · intro he
    rw [consume_cst src c len p hok, if_neg (by omega)]
  · intro he
    obtain ⟨a, b, d, e⟩ := nextVis_spec src c (p + 1)
    refine ⟨cst src c (max len (nextVis src c (p + 1) + 1)) (nextVis src c (p + 1)),
      nextVis src c (p + 1), ?_, ?_, by have := d (by omega); omega, a, ?_⟩
    · rw [consume_cst src c len p hok, if_pos he]
    · simp [CTS.index, cst, st]
    · intro n h1 h2; exact e n (by omega) h2

/-- `n` times `consume`. -/
def consumeN : Nat → CTS → Option CTS
  | 0, s => some s
  | n + 1, s => s.consume.bind (consumeN n)

/-- **C17** `lt(k)` is the `lt(1)` one would see after `k-1` consumes; if EOF is reached earlier,
`lt(k)` is EOF. -/
theorem C17_lookahead_is_future (src : Source) (c : Int) (s : CTS) (h : List Int)
    (hr : Reach src c s h) (k : Nat) :
    (∀ s', consumeN k s = some s' →
      (s.lt (k + 1 : Nat)).map Prod.fst = (s'.lt 1).map Prod.fst ∧ (s'.lt 1).isSome) ∧
    (consumeN k s = none → ∃ s', s.lt (k + 1 : Nat) = some (some (tok src (eofIdx src)), s')) := by
  obtain ⟨len, p, rfl, hok, hv, _⟩ := reach_inv hr
  have key : ∀ k len p, COK src len p →
      (∀ s', consumeN k (cst src c len p) = some s' →
        ∃ len', s' = cst src c len' (stepVis src c k p) ∧ COK src len' (stepVis src c k p)) ∧
      (consumeN k (cst src c len p) = none → stepVis src c k p = eofIdx src) := by
    intro k
    induction k with
    | zero =>
      intro len p hok
      refine ⟨?_, by simp [consumeN]⟩
      intro s' hs
      simp only [consumeN, Option.some.injEq] at hs
      exact ⟨len, hs.symm, hok⟩
    | succ k ih =>
      intro len p hok
      have hok' := hok
      unfold COK at hok'
      rw [consumeN, consume_cst src c len p hok, stepVis]
      by_cases he : p < eofIdx src
      · rw [if_pos he, if_pos he, Option.bind_some]
        have := nextVis_spec src c (p + 1)
        have h2 := this.2.2.1 (by omega)
        exact ih _ _ (by unfold COK; omega)
      · rw [if_neg he, if_neg he]
        refine ⟨by simp, fun _ => ?_⟩
        have := stepVis_le src c k p (by omega)
        omega
  obtain ⟨k1, k2⟩ := key k len p hok
  obtain ⟨len', _, _, hl⟩ := lt_cst src c len p (k + 1) (by omega) hok
  rw [Nat.add_sub_cancel] at hl
  constructor
  · intro s' hs
    obtain ⟨len₂, rfl, hok₂⟩ := k1 s' hs
    obtain ⟨len₃, _, _, h1⟩ := lt_cst src c len₂ (stepVis src c k p) 1 (Nat.le_refl _) hok₂
    simp only [Nat.sub_self, stepVis, Int.ofNat_one] at h1
    rw [hl, h1]
    exact ⟨rfl, rfl⟩
  · intro hn
    rw [k2 hn] at hl
    exact ⟨_, hl⟩

/-- A source with hidden tokens in the middle and at the end. -/
def mixed : Source where
  pre := [{ ttype := 1, text := ['a'] }, { ttype := 2, channel := 1, text := [' '] },
    { ttype := 2, channel := 1, text := [' '] }, { ttype := 3, text := ['b'] },
    { ttype := 2, channel := 1, text := ['\n'] }]
  eof := { ttype := -1 }
  pre_ne := by decide
  eof_eq := rfl

example : (readAll 6 (CTS.withChannel mixed 0)).map (·.map fun t => (t.ttype, t.index)) =
    some [(1, 0), (3, 3), (-1, 5)] := by decide +kernel

example : ((CTS.withChannel mixed 0).lt 2).map (fun r => r.1.map (·.index)) = some (some 3) := by
  decide +kernel

/-! ### C18 -/

theorem prevLoop_some (src : Source) (c : Int) (j : Nat) (hj : OnChannel src c j) (i fuel : Nat)
    (hij : j ≤ i) (hi : i < eofIdx src) (hno : ∀ n, j < n → n ≤ i → ¬ OnChannel src c n)
    (hf : i < fuel) : prevLoop src c fuel i = some (j : Int) := by
  induction fuel generalizing i with
  | zero => omega
  | succ fuel ih =>
    rw [prevLoop, if_neg (by omega), Int.toNat_natCast]
    by_cases h : j = i
    · subst h
      rw [if_neg (by simpa using hj.2)]
    · have hn := hno i (by omega) (Nat.le_refl _)
      have hc : (src.next i).channel ≠ c := fun hc => hn ⟨hi, hc⟩
      rw [if_pos hc, if_neg (by omega)]
      have e : (i : Int) - 1 = ((i - 1 : Nat) : Int) := by omega
      rw [e]
      exact ih (i - 1) (by omega) (by omega) (fun n h1 h2 => hno n h1 (by omega)) (by omega)

/-- The on-channel positions before `p`, nearest first. -/
def behind (src : Source) (c : Int) (p : Nat) : List Nat :=
  ((List.range p).filter fun n => decide (OnChannel src c n)).reverse

theorem behind_succ (src : Source) (c : Int) (p : Nat) :
    behind src c (p + 1) =
      if OnChannel src c p then p :: behind src c p else behind src c p := by
  simp only [behind, List.range_succ, List.filter_append, List.reverse_append]
  split <;> simp_all

theorem behind_cons (src : Source) (c : Int) (p j : Nat) (rest : List Nat)
    (h : behind src c p = j :: rest) :
    j < p ∧ OnChannel src c j ∧ (∀ n, j < n → n < p → ¬ OnChannel src c n) ∧
      rest = behind src c j := by
  induction p with
  | zero => simp [behind] at h
  | succ p ih =>
    rw [behind_succ] at h
    split at h
    · rename_i hp
      simp only [List.cons.injEq] at h
      obtain ⟨rfl, rfl⟩ := h
      exact ⟨by omega, hp, fun n h1 h2 => by omega, rfl⟩
    · rename_i hp
      obtain ⟨a, b, d, e⟩ := ih h
      refine ⟨by omega, b, ?_, e⟩
      intro n h1 h2
      by_cases hn : n = p
      · rw [hn]; exact hp
      · exact d n h1 (by omega)

theorem behind_length_le (src : Source) (c : Int) (p : Nat) : (behind src c p).length ≤ p := by
  simp only [behind, List.length_reverse]
  exact Nat.le_trans (List.length_filter_le _ _) (by simp)

theorem lbSpec_behind (src : Source) (c : Int) (k p : Nat) (hp : p ≤ eofIdx src)
    (j : Nat) (h : (behind src c p)[k]? = some j) : lbSpec src c (k + 1) p = some (j : Int) := by
  induction k generalizing p with
  | zero =>
    cases hb : behind src c p with
    | nil => simp [hb] at h
    | cons q rest =>
      simp only [hb, List.getElem?_cons_zero, Option.some.injEq] at h
      subst h
      obtain ⟨a, b, d, e⟩ := behind_cons src c p q rest hb
      rw [lbSpec, if_pos (by omega)]
      have e : (p : Int) - 1 = ((p - 1 : Nat) : Int) := by omega
      rw [e, prevLoop_some src c q b (p - 1) _ (by omega) (by omega)
        (fun n h1 h2 => d n h1 (by omega)) (by omega)]
      rfl
  | succ k ih =>
    cases hb : behind src c p with
    | nil => simp [hb] at h
    | cons q rest =>
      simp only [hb, List.getElem?_cons_succ] at h
      obtain ⟨a, b, d, e⟩ := behind_cons src c p q rest hb
      rw [lbSpec, if_pos (by omega)]
      have e' : (p : Int) - 1 = ((p - 1 : Nat) : Int) := by omega
      rw [e', prevLoop_some src c q b (p - 1) _ (by omega) (by omega)
        (fun n h1 h2 => d n h1 (by omega)) (by omega), Option.bind_some]
      rw [e] at h
      exact ih q (by omega) h

/-- **C18, partial.**  If at least `k` on-channel tokens precede the position, `lt(-k)` is the k-th
previous one; if fewer than `k` tokens precede it at all, `lt(-k)` is `None`.  In between the
property fails, see below. -/
theorem C18_look_behind_partial (src : Source) (c : Int) (s : CTS) (h : List Int)
    (hr : Reach src c s h) (k : Nat) (hk : 1 ≤ k) :
    ∃ p : Nat, s.index = p ∧
      (∀ j, (behind src c p)[k - 1]? = some j → s.lt (-(k : Int)) = some (some (tok src j), s)) ∧
      (p < k → s.lt (-(k : Int)) = some (none, s)) := by
  obtain ⟨len, p, rfl, hok, hv, _⟩ := reach_inv hr
  refine ⟨p, by simp [CTS.index, cst, st], ?_, ?_⟩
  · intro j hj
    have h1 : k - 1 < (behind src c p).length := by
      by_contra hcon
      rw [List.getElem?_eq_none (by omega)] at hj; simp at hj
    have h2 := behind_length_le src c p
    have hok' := hok
    unfold COK at hok'
    have e : k = (k - 1) + 1 := by omega
    have hl := lbSpec_behind src c (k - 1) p (by omega) j hj
    rw [← e] at hl
    rw [lt_neg_cst src c len p k hk hok, if_neg (by omega), hl]
    rfl
  · intro hp
    rw [lt_neg_cst src c len p k hk hok, if_pos hp]

example : behind mixed 0 5 = [3, 0] := by decide +kernel

/-- Three tokens `a`, hidden, `b`. -/
def oneHidden : Source where
  pre := [{ ttype := 1 }, { ttype := 2, channel := 1 }, { ttype := 3 }]
  eof := { ttype := -1 }
  pre_ne := by decide
  eof_eq := rfl

/-- **C18 is false**: at token 2 only one on-channel token precedes, yet `lt(-2)` answers token 0
instead of `None`. -/
theorem C18_false_first : behind oneHidden 0 2 = [0] ∧
    ((CTS.withChannel oneHidden 0).consume.bind fun s => (s.lt (-2)).map fun r =>
      (s.index, r.1.map (·.index))) = some (2, some 0) := by decide +kernel

/-- **C18 is false**: if all preceding tokens are off channel, `lt(-1)` panics. -/
theorem C18_false_panic : behind hiddenFirst 0 1 = [] ∧
    ((CTS.withChannel hiddenFirst 0).consume.map fun s => (s.index, (s.lt (-1)).isNone)) =
      some (1, true) := by decide +kernel

/-! ### C19 -/

/-- **C19** Any position recorded earlier can be sought, with or without marks, and the stream then
stands there. -/
theorem C19_seek_recorded (src : Source) (c : Int) (s : CTS) (h : List Int) (hr : Reach src c s h)
    (q : Int) (hq : q ∈ h) : ∃ s', s.seek q = some s' ∧ s'.index = q ∧ Reach src c s' h := by
  obtain ⟨len, p, rfl, hok, hv, _, _, h2⟩ := reach_inv hr
  obtain ⟨n, rfl, e2, e3⟩ := h2 q hq
  have hs := seek_cst src c len p n hok e2
  exact ⟨_, hs, by simp [CTS.index, cst, st], hr.seek hq hs⟩

/-- **C19** Everything observable by later lookahead and consume depends on the position alone: two
reachable states at the same index answer every `lt(k)` (also negative) alike, and `consume` takes
both to the same index or panics in both. -/
theorem C19_position_determines (src : Source) (c : Int) (s₁ s₂ : CTS) (h₁ h₂ : List Int)
    (hr₁ : Reach src c s₁ h₁) (hr₂ : Reach src c s₂ h₂) (heq : s₁.index = s₂.index) :
    (∀ k, (s₁.lt k).map Prod.fst = (s₂.lt k).map Prod.fst) ∧
    (s₁.consume.map CTS.index = s₂.consume.map CTS.index) := by
  obtain ⟨len₁, p₁, rfl, hok₁, _⟩ := reach_inv hr₁
  obtain ⟨len₂, p₂, rfl, hok₂, _⟩ := reach_inv hr₂
  have hp : p₁ = p₂ := by simp only [CTS.index, cst, st] at heq; omega
  subst hp
  constructor
  · intro k
    rcases Int.lt_trichotomy k 0 with hk | hk | hk
    · obtain ⟨n, rfl⟩ : ∃ n : Nat, k = -(n : Int) := ⟨(-k).toNat, by omega⟩
      rw [lt_neg_cst src c _ _ n (by omega) hok₁, lt_neg_cst src c _ _ n (by omega) hok₂]
      split
      · rfl
      · cases lbSpec src c n p₁ <;> rfl
    · subst hk; simp [CTS.lt]
    · obtain ⟨n, rfl⟩ : ∃ n : Nat, k = (n : Int) := ⟨k.toNat, by omega⟩
      obtain ⟨_, _, _, e1⟩ := lt_cst src c _ _ n (by omega) hok₁
      obtain ⟨_, _, _, e2⟩ := lt_cst src c _ _ n (by omega) hok₂
      rw [e1, e2]; rfl
  · rw [consume_cst _ _ _ _ hok₁, consume_cst _ _ _ _ hok₂]
    split <;> simp [CTS.index, cst, st]

end Antlr.CommonProps

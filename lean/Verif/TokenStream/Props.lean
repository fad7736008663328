import Verif.TokenStream.Lemmas

/-!
# Token streams: properties C12 – C15 (`UnbufferedTokenStream`)
-/

namespace Antlr.TokenProps
open Antlr TokenSpec

/-- What a client can do with an unbuffered token stream. -/
inductive Op where
  | lt (k : Int) | la (k : Int) | get (i : Int) | consume | mark | release (m : Int) | seek (i : Int)
  | text (a b : Int)

/-- The stream after an operation (`none` = panic). -/
def Op.run (s : TS) : Op → Option TS
  | .lt k => (s.lt k).map Prod.snd
  | .la k => (s.la k).map Prod.snd
  | .get i => (s.get i).map fun _ => s
  | .consume => s.consume
  | .mark => some s.mark.2
  | .release m => s.release m
  | .seek i => s.seek i
  | .text a b => (s.getText a b).map fun _ => s

def runOps (s : TS) : List Op → Option TS
  | [] => some s
  | o :: os => (o.run s).bind fun s' => runOps s' os

/-- States reachable from a fresh stream over `src` without a panic. -/
def Reachable (src : Source) (s : TS) : Prop := ∃ ops, runOps (TS.newUnbuffered src) ops = some s

/-! ### The invariant -/

/-- Reachable states are canonical. -/
def Inv (src : Source) (s : TS) : Prop := ∃ m bs len p, s = st src m bs len p ∧ OK src bs len p

theorem inv_new (src : Source) : Inv src (TS.newUnbuffered src) :=
  ⟨0, 0, 0, 0, by simp [TS.newUnbuffered, st, window], by simp [OK]⟩

theorem inv_lt {src : Source} {s s' : TS} {k : Int} {r : Option Tok} (h : Inv src s)
    (hr : s.lt k = some (r, s')) : Inv src s' ∧ s'.cur = s.cur ∧ s'.markers = s.markers := by
  obtain ⟨m, bs, len, p, rfl, hok⟩ := h
  rw [TS.lt] at hr
  split at hr
  · split at hr
    · simp at hr
    · simp only [Option.some.injEq, Prod.mk.injEq] at hr
      rw [← hr.2]; exact ⟨⟨m, bs, len, p, rfl, hok⟩, rfl, rfl⟩
  · simp only [sync_st src m bs len p k hok, Option.some.injEq, Prod.mk.injEq] at hr
    rw [← hr.2]
    exact ⟨⟨m, bs, _, p, rfl, OK_sync' hok _⟩, rfl, rfl⟩

theorem inv_op {src : Source} {s s' : TS} (o : Op) (h : Inv src s) (hr : o.run s = some s') :
    Inv src s' := by
  cases o with
  | lt k =>
    simp only [Op.run, Option.map_eq_some_iff] at hr
    obtain ⟨⟨r, t⟩, h1, rfl⟩ := hr
    exact (inv_lt h h1).1
  | la k =>
    simp only [Op.run, TS.la, Option.map_eq_some_iff] at hr
    obtain ⟨_, ⟨⟨r, t⟩, h1, rfl⟩, rfl⟩ := hr
    exact (inv_lt h h1).1
  | get i =>
    simp only [Op.run, Option.map_eq_some_iff] at hr
    obtain ⟨_, _, rfl⟩ := hr; exact h
  | text a b =>
    simp only [Op.run, Option.map_eq_some_iff] at hr
    obtain ⟨_, _, rfl⟩ := hr; exact h
  | consume =>
    obtain ⟨m, bs, len, p, rfl, hok⟩ := h
    simp only [Op.run, consume_st src m bs len p hok] at hr
    split at hr
    · rename_i he
      simp only [Option.some.injEq] at hr
      exact ⟨m, bs, _, _, hr.symm, OK_consume hok he⟩
    · simp at hr
  | mark =>
    obtain ⟨m, bs, len, p, rfl, hok⟩ := h
    simp only [Op.run, TS.mark, Option.some.injEq] at hr
    exact ⟨m + 1, bs, len, p, hr.symm, hok⟩
  | release mk =>
    obtain ⟨m, bs, len, p, rfl, hok⟩ := h
    simp only [Op.run, release_st src m bs len p mk hok] at hr
    split at hr
    · simp at hr
    · split at hr <;> simp only [Option.some.injEq] at hr
      · exact ⟨0, _, _, _, hr.symm, OK_release hok⟩
      · exact ⟨m - 1, bs, len, p, hr.symm, hok⟩
  | seek i =>
    obtain ⟨m, bs, len, p, rfl, hok⟩ := h
    simp only [Op.run, seek_st src m bs len p i hok] at hr
    split at hr
    · simp only [Option.some.injEq] at hr; exact ⟨m, bs, len, p, hr.symm, hok⟩
    · split at hr
      · simp only [Option.some.injEq] at hr
        exact ⟨m, bs, len, _, hr.symm, by unfold OK at *; omega⟩
      · simp at hr

theorem inv_ops {src : Source} {s s' : TS} (ops : List Op) (h : Inv src s)
    (hr : runOps s ops = some s') : Inv src s' := by
  induction ops generalizing s with
  | nil => simp [runOps] at hr; rw [← hr]; exact h
  | cons o os ih =>
    simp only [runOps, Option.bind_eq_some_iff] at hr
    obtain ⟨t, h1, h2⟩ := hr
    exact ih (inv_op o h h1) h2

theorem inv_reachable {src : Source} {s : TS} (h : Reachable src s) : Inv src s := by
  obtain ⟨ops, h⟩ := h
  exact inv_ops ops (inv_new src) h

theorem getAt_tok (src : Source) (m : Int) (bs len p : Nat) (i : Int) (t : Tok)
    (h : (st src m bs len p).getAt i = some t) :
    ∃ j : Nat, j < len ∧ i = j ∧ t = tok src (bs + j) := by
  by_cases h0 : i < 0
  · simp [TS.getAt, h0] at h
  · have e : i = (i.toNat : Nat) := by omega
    rw [e, getAt_st] at h
    split at h
    · simp only [Option.some.injEq] at h
      exact ⟨i.toNat, by assumption, e, h.symm⟩
    · simp at h

/-! ### C12 -/

/-- **C12** Whatever the client does, the source is asked for at most the tokens up to and including
its first EOF; every token handed out by `lt` or `get` is the n-th token of the source, carrying the
token index n, and `get(i)` hands out token number i. -/
theorem C12_tokens_of_source (src : Source) (s : TS) (h : Reachable src s) :
    s.fetched ≤ eofIdx src + 1 ∧
    (∀ k t s', s.lt k = some (some t, s') → ∃ n, n ≤ eofIdx src ∧ t = tok src n) ∧
    (∀ i t, s.get i = some t → ∃ n : Nat, n ≤ eofIdx src ∧ i = n ∧ t = tok src n) := by
  obtain ⟨m, bs, len, p, rfl, hok⟩ := inv_reachable h
  have hok' := hok
  unfold OK at hok'
  refine ⟨by simp only [st]; omega, ?_, ?_⟩
  · intro k t s' hr
    rw [TS.lt] at hr
    split at hr
    · split at hr
      · simp at hr
      · simp only [Option.some.injEq, Prod.mk.injEq] at hr
        obtain ⟨j, hj, _, rfl⟩ := getAt_tok _ _ _ _ _ _ _ hr.1
        exact ⟨_, by omega, rfl⟩
    · simp only [sync_st src m bs len p k hok, Option.some.injEq, Prod.mk.injEq] at hr
      obtain ⟨j, hj, _, rfl⟩ := getAt_tok _ _ _ _ _ _ _ hr.1
      have := OK_sync' hok (p + k).toNat
      unfold OK at this
      exact ⟨_, by omega, rfl⟩
  · intro i t hr
    rw [TS.get] at hr
    obtain ⟨j, hj, e, rfl⟩ := getAt_tok _ _ _ _ _ _ _ hr
    refine ⟨bs + j, by omega, ?_, rfl⟩
    simp only [TS.bufferStart, st] at e; omega

/-- Calling `next` on a token iterator `n` times. -/
def iterTimes : Nat → TS → Bool → Option (List (Option Tok) × TS × Bool)
  | 0, s, fin => some ([], s, fin)
  | n + 1, s, fin =>
    match s.iterNext fin with
    | none => none
    | some (t, s', fin') => (iterTimes n s' fin').map fun r => (t :: r.1, r.2)

/-- **C12** The token iterator of a fresh stream yields exactly the tokens of the source, numbered,
through the first EOF, and then `None` for ever. -/
theorem C12_token_iter (src : Source) (extra : Nat) :
    (iterTimes (eofIdx src + 1 + extra) (TS.newUnbuffered src) false).map Prod.fst =
      some ((List.range (eofIdx src + 1)).map (fun n => some (tok src n)) ++
        List.replicate extra none) := by
  have fin : ∀ n s, (iterTimes n s true).map Prod.fst = some (List.replicate n none) := by
    intro n
    induction n with
    | zero => intro s; rfl
    | succ n ih =>
      intro s
      have := ih s
      simp only [iterTimes, TS.iterNext, ↓reduceIte]
      cases hh : iterTimes n s true with
      | none => simp [hh] at this
      | some r => simp [hh] at this; simp [this, List.replicate_succ]
  have run : ∀ d p len, OK src 0 len p → p + d = eofIdx src →
      (iterTimes (d + 1 + extra) (st src 0 0 len p) false).map Prod.fst =
      some ((List.range' p (d + 1)).map (fun n => some (tok src n)) ++ List.replicate extra none) := by
    intro d
    induction d with
    | zero =>
      intro p len hok hp
      have hlt := lt_st src 0 0 len p 1 (by omega) hok
      simp only [Int.ofNat_one] at hlt
      have e : 0 + 1 + extra = extra + 1 := by omega
      rw [e, iterTimes, TS.iterNext, if_neg (by simp), hlt]
      rw [if_pos (by omega)]
      simp only [Nat.zero_add, Nat.add_sub_cancel, tok_eof_iff]
      rw [if_pos (by omega)]
      have := fin extra (st src 0 0 (syncLen src 0 len (p + 1)) p)
      cases hh : iterTimes extra (st src 0 0 (syncLen src 0 len (p + 1)) p) true with
      | none => simp [hh] at this
      | some r => simp [hh] at this; simp [hh, this]
    | succ d ih =>
      intro p len hok hp
      have hlt := lt_st src 0 0 len p 1 (by omega) hok
      simp only [Int.ofNat_one] at hlt
      have e : d + 1 + 1 + extra = (d + 1 + extra) + 1 := by omega
      rw [e, iterTimes, TS.iterNext, if_neg (by simp), hlt]
      rw [if_pos (by omega)]
      simp only [Nat.zero_add, Nat.add_sub_cancel, tok_eof_iff]
      rw [if_neg (by omega), consume_st _ _ _ _ _ (OK_sync' hok _), if_pos (by omega)]
      simp only [Option.map_some]
      have := ih (p + 1) _ (OK_consume (OK_sync' hok (p + 1)) (by omega)) (by omega)
      generalize iterTimes (d + 1 + extra) _ false = x at this ⊢
      cases x with
      | none => simp at this
      | some r =>
        simp only [Option.map_some, Option.some.injEq] at this
        simp only [Option.map_some, this]
        rw [List.range'_succ (s := p)]
        rfl
  have h0 : TS.newUnbuffered src = st src 0 0 0 0 := by simp [TS.newUnbuffered, st, window]
  rw [h0, run (eofIdx src) 0 0 (by simp [OK]) (by omega), List.range_eq_range']

/-- A source used in the examples below: `a`, white space on channel 1, `b`, EOF. -/
def demo : Source where
  pre := [{ ttype := 1, text := ['a'] }, { ttype := 2, channel := 1, text := [' '] },
    { ttype := 3, text := ['b'] }]
  eof := { ttype := -1, text := ['<', 'E', 'O', 'F', '>'] }
  pre_ne := by decide
  eof_eq := rfl

example : (runOps (TS.newUnbuffered demo)
    [.lt 2, .mark, .consume, .consume, .seek 1, .lt 3, .release (-1)]).map
      (fun s => (s.cur, s.fetched, s.p)) = some (1, 4, 0) := by decide +kernel

/-! ### C13 -/

/-- **C13** `lt` and `la` never move the stream. -/
theorem C13_lookahead_keeps_index (src : Source) (s : TS) (h : Reachable src s) (k : Int) :
    (∀ r s', s.lt k = some (r, s') → s'.cur = s.cur) ∧
    (∀ r s', s.la k = some (r, s') → s'.cur = s.cur) := by
  have hinv := inv_reachable h
  refine ⟨fun r s' hr => (inv_lt hinv hr).2.1, ?_⟩
  intro r s' hr
  simp only [TS.la, Option.map_eq_some_iff] at hr
  obtain ⟨⟨q, t⟩, h1, h2⟩ := hr
  simp only [Prod.mk.injEq] at h2
  rw [← h2.2]
  exact (inv_lt hinv h1).2.1

/-- **C13, partial.**  In every reachable state, `lt(k)` for `k ≥ 1` is token number `index()+k-1` of
the source — whatever was looked at before — as long as this does not lie beyond EOF; beyond EOF the
answer is `None` (where the property asks for EOF, see `C13_false_beyond_eof`). -/
theorem C13_lt_forward_partial (src : Source) (s : TS) (h : Reachable src s) (k : Nat) (hk : 1 ≤ k) :
    ∃ pos : Nat, s.cur = pos ∧ pos ≤ eofIdx src ∧
    ∃ s', s.lt k = some (if pos + k - 1 ≤ eofIdx src then some (tok src (pos + k - 1)) else none, s') := by
  obtain ⟨m, bs, len, p, rfl, hok⟩ := inv_reachable h
  have := hok
  unfold OK at this
  exact ⟨bs + p, rfl, by omega, _, lt_st src m bs len p k hk hok⟩

/-- **C13** `consume` moves to the next token, and then `lt(-1)` is what `lt(1)` was; at EOF it
panics. -/
theorem C13_consume (src : Source) (s : TS) (h : Reachable src s) :
    (∃ s₁, s.la 1 = some (TOKEN_EOF, s₁) ∧ s.consume = none) ∨
    (∃ s' t s₁ s₂, s.consume = some s' ∧ s'.cur = s.cur + 1 ∧
      s.lt 1 = some (some t, s₁) ∧ t.ttype ≠ TOKEN_EOF ∧ s'.lt (-1) = some (some t, s₂)) := by
  obtain ⟨m, bs, len, p, rfl, hok⟩ := inv_reachable h
  have hok' := hok
  unfold OK at hok'
  have hlt := lt_st src m bs len p 1 (by omega) hok
  simp only [Int.ofNat_one, Nat.add_sub_cancel] at hlt
  rw [if_pos (by omega)] at hlt
  by_cases he : bs + p < eofIdx src
  · right
    refine ⟨st src m bs (syncLen src bs len (p + 2)) (p + 1), tok src (bs + p), _,
      st src m bs (syncLen src bs len (p + 2)) (p + 1), ?_, ?_, hlt, ?_, ?_⟩
    · rw [consume_st src m bs len p hok, if_pos he]
    · simp only [st]; omega
    · rw [Ne, tok_eof_iff]; omega
    · rw [TS.lt, if_pos rfl, if_neg (by simp only [st]; omega)]
      have e : (st src m bs (syncLen src bs len (p + 2)) (p + 1)).p - 1 = (p : Int) := by
        simp only [st]; omega
      rw [e, getAt_st, if_pos (by unfold syncLen; omega)]
  · left
    refine ⟨st src m bs (syncLen src bs len (p + 1)) p, ?_, ?_⟩
    · rw [la_one_st src m bs len p hok, (tok_eof_iff src (bs + p)).mpr (by omega)]
    · rw [consume_st src m bs len p hok, if_neg he]

/-- **C13 is false beyond EOF**: standing at EOF, the next lookahead is `None` / the invalid token
type 0 and not EOF — for every source and every reachable state. -/
theorem C13_false_beyond_eof (src : Source) (s : TS) (h : Reachable src s)
    (hs : s.cur = eofIdx src) :
    (s.lt 2).map Prod.fst = some none ∧ (s.la 2).map Prod.fst = some TOKEN_INVALID_TYPE := by
  obtain ⟨pos, hp, _, s', h2⟩ := C13_lt_forward_partial src s h 2 (by omega)
  rw [if_neg (by omega)] at h2
  have h2 : s.lt 2 = some (none, s') := h2
  simp [TS.la, h2]

/-- Deeper look-behind is off by one: after consuming two tokens, `lt(-2)` answers `None` although
token 0 is still buffered. -/
theorem C13_false_look_behind :
    (runOps (TS.newUnbuffered demo) [.mark, .consume, .consume]).map
      (fun s => (s.get 0, (s.lt (-2)).map Prod.fst)) =
      some (some (tok demo 0), some none) := by decide +kernel

/-- The `IntStream` iterator over a token stream panics at EOF (C11). -/
theorem C11_false_token_stream (src : Source) (s : TS) (h : Reachable src s)
    (hs : s.cur = eofIdx src) : s.intIterNext = none := by
  obtain ⟨m, bs, len, p, rfl, hok⟩ := inv_reachable h
  have he : ¬ bs + p < eofIdx src := by simp only [st] at hs; omega
  have hc := consume_st src m _ _ _ (OK_sync' hok (p + 1))
  rw [if_neg he] at hc
  simp only [TS.intIterNext, la_one_st src m bs len p hok, hc, Option.bind_some, Option.map_none]

/-! ### C14 -/

/-- Well-nested use of markers: `block inner` is `let m = mark(); inner; release(m)`. -/
inductive Prog where
  | done
  | lt (k : Int) (rest : Prog)
  | consume (rest : Prog)
  | seek (i : Int) (rest : Prog)
  | block (inner rest : Prog)

/-- Runs a program; also collects the positions at which the stream stood. -/
def Prog.run : Prog → TS → Option (List Int × TS)
  | .done, s => some ([s.cur], s)
  | .lt k rest, s =>
    (s.lt k).bind fun x => (rest.run x.2).map fun r => (s.cur :: r.1, r.2)
  | .consume rest, s =>
    s.consume.bind fun s' => (rest.run s').map fun r => (s.cur :: r.1, r.2)
  | .seek i rest, s =>
    (s.seek i).bind fun s' => (rest.run s').map fun r => (s.cur :: r.1, r.2)
  | .block inner rest, s =>
    (inner.run s.mark.2).bind fun x =>
      (x.2.release s.mark.1).bind fun s₃ => (rest.run s₃).map fun r => (x.1 ++ r.1, r.2)

/-- Running a program keeps the invariant and the marker count; under a marker it also keeps the
buffer start, and all positions visited stay inside the buffer. -/
theorem run_inv (pr : Prog) : ∀ (src : Source) (m : Int) (bs len p : Nat) (v : List Int) (s' : TS),
    OK src bs len p → 0 ≤ m → pr.run (st src m bs len p) = some (v, s') →
    ∃ bs' len' p', s' = st src m bs' len' p' ∧ OK src bs' len' p' ∧
      (1 ≤ m → bs' = bs ∧ len ≤ len' ∧
        ∀ q ∈ v, (bs : Int) ≤ q ∧ (q < (bs + len' : Nat) ∨ (q = 0 ∧ bs = 0))) := by
  induction pr with
  | done =>
    intro src m bs len p v s' hok hm hr
    simp only [Prog.run, Option.some.injEq, Prod.mk.injEq] at hr
    refine ⟨bs, len, p, hr.2.symm, hok, fun _ => ⟨rfl, Nat.le_refl _, ?_⟩⟩
    intro q hq
    rw [← hr.1] at hq
    simp only [st, List.mem_singleton] at hq
    unfold OK at hok
    omega
  | lt k rest ih =>
    intro src m bs len p v s' hok hm hr
    simp only [Prog.run] at hr
    cases hl : (st src m bs len p).lt k with
    | none => simp [hl] at hr
    | some x =>
      obtain ⟨r, t⟩ := x
      simp only [hl, Option.bind_some, Option.map_eq_some_iff] at hr
      obtain ⟨⟨v', t'⟩, hr1, hr2⟩ := hr
      simp only [Prod.mk.injEq] at hr2
      obtain ⟨rfl, rfl⟩ := hr2
      have ht : ∃ len₁, len ≤ len₁ ∧ t = st src m bs len₁ p ∧ OK src bs len₁ p := by
        rw [TS.lt] at hl
        split at hl
        · split at hl
          · simp at hl
          · simp only [Option.some.injEq, Prod.mk.injEq] at hl
            exact ⟨len, Nat.le_refl _, hl.2.symm, hok⟩
        · simp only [sync_st src m bs len p k hok, Option.some.injEq, Prod.mk.injEq] at hl
          exact ⟨_, by unfold syncLen; omega, hl.2.symm, OK_sync' hok _⟩
      obtain ⟨len₁, hle, rfl, hok₁⟩ := ht
      obtain ⟨bs', len', p', h1, h2, h3⟩ := ih src m bs len₁ p v' t' hok₁ hm hr1
      refine ⟨bs', len', p', h1, h2, fun hm1 => ?_⟩
      obtain ⟨a, b, c⟩ := h3 hm1
      refine ⟨a, by omega, ?_⟩
      intro q hq
      rcases List.mem_cons.mp hq with rfl | hq
      · simp only [st]; unfold OK at hok; omega
      · exact c q hq
  | consume rest ih =>
    intro src m bs len p v s' hok hm hr
    simp only [Prog.run, consume_st src m bs len p hok] at hr
    by_cases he : bs + p < eofIdx src
    · rw [if_pos he] at hr
      simp only [Option.bind_some, Option.map_eq_some_iff] at hr
      obtain ⟨⟨v', t'⟩, hr1, hr2⟩ := hr
      simp only [Prod.mk.injEq] at hr2
      obtain ⟨rfl, rfl⟩ := hr2
      have hok₁ := OK_consume hok he
      obtain ⟨bs', len', p', h1, h2, h3⟩ := ih src m bs _ _ v' t' hok₁ hm hr1
      refine ⟨bs', len', p', h1, h2, fun hm1 => ?_⟩
      obtain ⟨a, b, c⟩ := h3 hm1
      unfold OK at hok₁ hok
      have hl : syncLen src bs len (p + 2) ≥ len := by unfold syncLen; omega
      refine ⟨a, by omega, ?_⟩
      intro q hq
      rcases List.mem_cons.mp hq with rfl | hq
      · simp only [st]; omega
      · have := c q hq
        omega
    · rw [if_neg he] at hr; simp at hr
  | seek i rest ih =>
    intro src m bs len p v s' hok hm hr
    simp only [Prog.run, seek_st src m bs len p i hok] at hr
    by_cases h1 : i = (bs + p : Nat)
    · rw [if_pos h1] at hr
      simp only [Option.bind_some, Option.map_eq_some_iff] at hr
      obtain ⟨⟨v', t'⟩, hr1, hr2⟩ := hr
      simp only [Prod.mk.injEq] at hr2
      obtain ⟨rfl, rfl⟩ := hr2
      obtain ⟨bs', len', p', h1, h2, h3⟩ := ih src m bs len p v' t' hok hm hr1
      refine ⟨bs', len', p', h1, h2, fun hm1 => ?_⟩
      obtain ⟨a, b, c⟩ := h3 hm1
      refine ⟨a, by omega, ?_⟩
      intro q hq
      rcases List.mem_cons.mp hq with rfl | hq
      · simp only [st]; unfold OK at hok; omega
      · exact c q hq
    · rw [if_neg h1] at hr
      by_cases h2 : (bs : Int) ≤ i ∧ i < (bs + len : Nat)
      · rw [if_pos h2] at hr
        simp only [Option.bind_some, Option.map_eq_some_iff] at hr
        obtain ⟨⟨v', t'⟩, hr1, hr2⟩ := hr
        simp only [Prod.mk.injEq] at hr2
        obtain ⟨rfl, rfl⟩ := hr2
        have hok₁ : OK src bs len (i - bs).toNat := by unfold OK at *; omega
        obtain ⟨bs', len', p', h1, h2, h3⟩ := ih src m bs len _ v' t' hok₁ hm hr1
        refine ⟨bs', len', p', h1, h2, fun hm1 => ?_⟩
        obtain ⟨a, b, c⟩ := h3 hm1
        refine ⟨a, by omega, ?_⟩
        intro q hq
        rcases List.mem_cons.mp hq with rfl | hq
        · simp only [st]; unfold OK at hok; omega
        · have := c q hq
          omega
      · rw [if_neg h2] at hr; simp at hr
  | block inner rest ihi ihr =>
    intro src m bs len p v s' hok hm hr
    simp only [Prog.run, TS.mark] at hr
    have e : ({ st src m bs len p with markers := (st src m bs len p).markers + 1 } : TS) =
      st src (m + 1) bs len p := rfl
    rw [e] at hr
    cases hi : inner.run (st src (m + 1) bs len p) with
    | none => simp [hi] at hr
    | some x =>
      obtain ⟨v₁, s₂⟩ := x
      obtain ⟨bs', len', p', rfl, hok₂, h3⟩ := ihi src (m + 1) bs len p v₁ s₂ hok (by omega) hi
      obtain ⟨rfl, hlen, hv⟩ := h3 (by omega)
      have hrel := release_st src (m + 1) bs' len' p' (-(m + 1)) hok₂
      rw [if_neg (by simp)] at hrel
      have hmk : (st src m bs' len p).markers = m := rfl
      simp only [hi, hmk, hrel, Option.bind_some] at hr
      by_cases hm0 : m + 1 = 1
      · have hm0' : m = 0 := by omega
        subst hm0'
        simp only [Int.zero_add, ↓reduceIte, Option.bind_some, Option.map_eq_some_iff] at hr
        obtain ⟨⟨v', t'⟩, hr1, hr2⟩ := hr
        simp only [Prod.mk.injEq] at hr2
        obtain ⟨rfl, rfl⟩ := hr2
        obtain ⟨bs'', len'', p'', h1, h2, _⟩ := ihr src 0 _ _ _ v' t' (OK_release hok₂) (by omega) hr1
        exact ⟨bs'', len'', p'', h1, h2, fun h => absurd h (by omega)⟩
      · rw [if_neg hm0] at hr
        have e2 : m + 1 - 1 = m := by omega
        rw [e2] at hr
        simp only [Option.bind_some, Option.map_eq_some_iff] at hr
        obtain ⟨⟨v', t'⟩, hr1, hr2⟩ := hr
        simp only [Prod.mk.injEq] at hr2
        obtain ⟨rfl, rfl⟩ := hr2
        obtain ⟨bs'', len'', p'', h1, h2, h4⟩ := ihr src m bs' len' p' v' t' hok₂ hm hr1
        refine ⟨bs'', len'', p'', h1, h2, fun hm1 => ?_⟩
        obtain ⟨a, b, c⟩ := h4 hm1
        refine ⟨a, by omega, ?_⟩
        intro q hq
        rcases List.mem_append.mp hq with hq | hq
        · have := hv q hq
          unfold OK at hok₂ h2
          omega
        · have := c q hq
          unfold OK at hok₂
          omega

/-- A stream after a well-nested history. -/
def WellNested (src : Source) (s : TS) : Prop :=
  ∃ (pr : Prog) (outer : Nat) (v : List Int),
    pr.run { TS.newUnbuffered src with markers := outer } = some (v, s)

theorem wellNested_st {src : Source} {s : TS} (h : WellNested src s) :
    ∃ (m : Nat) (bs len p : Nat), s = st src m bs len p ∧ OK src bs len p := by
  obtain ⟨pr, m, v, h⟩ := h
  have e : ({ TS.newUnbuffered src with markers := (m : Int) } : TS) = st src m 0 0 0 := by
    simp [TS.newUnbuffered, st, window]
  rw [e] at h
  obtain ⟨bs, len, p, h1, h2, _⟩ := run_inv pr src m 0 0 0 v s (by simp [OK]) (by omega) h
  exact ⟨m, bs, len, p, h1, h2⟩

/-- **C14** After any well-nested history take a marker and do anything well-nested (`inner`).
Then: the matching `release` does not panic; every position visited since the mark can be sought;
there the stream answers `lt(k)` with the same tokens of the source as ever. -/
theorem C14_backtracking (src : Source) (s : TS) (h : WellNested src s) (inner : Prog)
    (v : List Int) (s₂ : TS) (hr : inner.run s.mark.2 = some (v, s₂)) :
    (∃ s₃, s₂.release s.mark.1 = some s₃ ∧ s₃.cur = s₂.cur ∧ s₃.markers = s.markers) ∧
    (∀ q ∈ v, ∃ s₄, s₂.seek q = some s₄ ∧ s₄.cur = q ∧
      ∀ k : Nat, 1 ≤ k → ∃ n s₅, q = (n : Nat) ∧ s₄.lt k =
        some (if n + k - 1 ≤ eofIdx src then some (tok src (n + k - 1)) else none, s₅)) := by
  obtain ⟨m, bs, len, p, rfl, hok⟩ := wellNested_st h
  have e : (st src m bs len p).mark.2 = st src (m + 1) bs len p := rfl
  rw [e] at hr
  obtain ⟨bs', len', p', rfl, hok₂, h3⟩ := run_inv inner src (m + 1) bs len p v s₂ hok (by omega) hr
  obtain ⟨rfl, hlen, hv⟩ := h3 (by omega)
  constructor
  · have e1 : (st src m bs' len p).mark.1 = -((m : Int) + 1) := rfl
    rw [e1, release_st _ _ _ _ _ _ hok₂, if_neg (by simp)]
    split
    · exact ⟨_, rfl, by simp [st], by simp only [st]; omega⟩
    · exact ⟨_, rfl, rfl, by simp only [st]; omega⟩
  · intro q hq
    have hq' := hv q hq
    have hok₂' := hok₂
    unfold OK at hok₂' hok
    obtain ⟨j, hj⟩ : ∃ j : Nat, q = ((bs' + j : Nat) : Int) := ⟨(q - bs').toNat, by omega⟩
    have hs : (st src (↑m + 1) bs' len' p').seek q = some (st src (↑m + 1) bs' len' j) ∧
        OK src bs' len' j := by
      rw [seek_st _ _ _ _ _ _ hok₂]
      by_cases h1 : q = (bs' + p' : Nat)
      · have : j = p' := by omega
        rw [if_pos h1, this]; exact ⟨rfl, hok₂⟩
      · have hlen0 : len' ≠ 0 := by intro h0; omega
        rw [if_neg h1, if_pos (by omega)]
        have : (q - (bs' : Int)).toNat = j := by omega
        rw [this]
        exact ⟨rfl, by unfold OK; omega⟩
    refine ⟨_, hs.1, by simp only [st]; omega, ?_⟩
    intro k hk
    exact ⟨bs' + j, _, hj, lt_st _ _ _ _ _ k hk hs.2⟩

example : ((Prog.block (.consume (.block (.consume .done) (.seek 0 (.lt 3 .done))))
    (.consume .done)).run (TS.newUnbuffered demo)).map (fun r => (r.1, r.2.cur, r.2.markers)) =
    some ([0, 1, 2, 2, 0, 0, 0, 1], 1, 0) := by decide +kernel

/-! ### C15 -/

theorem textLoop_range (src : Source) (a n : Nat) :
    TS.textLoop ((List.range' a n).map (tok src)) =
      ((List.range' a n).filter (· < eofIdx src)).flatMap fun n => (src.next n).text := by
  induction n generalizing a with
  | zero => rfl
  | succ n ih =>
    rw [List.range'_succ, List.map_cons, TS.textLoop]
    simp only [tok_eof_iff]
    by_cases h : eofIdx src ≤ a
    · rw [if_pos h]
      symm
      rw [List.flatMap_eq_nil_iff]
      intro x hx
      simp only [List.mem_filter, List.mem_cons, List.mem_range'_1, decide_eq_true_eq] at hx
      omega
    · rw [if_neg h, ih, List.filter_cons_of_pos (by simp; omega)]
      rfl

/-- **C15** In every reachable state there is a window of buffered token numbers `[lo, hi)`,
containing the current position (unless nothing was fetched yet), such that the text of `a..=b` is
the concatenated text of tokens `a..=b` short of EOF when the interval lies in the window; outside
it panics. -/
theorem C15_interval_text (src : Source) (s : TS) (h : Reachable src s) :
    ∃ lo hi : Nat, s.size = (hi : Int) - lo ∧ hi = s.fetched ∧
      ((lo : Int) ≤ s.cur ∧ s.cur < hi ∨ s.cur = 0 ∧ hi = 0) ∧
      (∀ a b : Nat, lo ≤ a → b < hi → s.getText a b = some (textOf src a b)) ∧
      (∀ a b : Int, (a < lo ∨ (hi : Int) ≤ b) → s.getText a b = none) := by
  obtain ⟨m, bs, len, p, rfl, hok⟩ := inv_reachable h
  have hok' := hok
  unfold OK at hok'
  have hb : (st src m bs len p).bufferStart = bs := by simp only [TS.bufferStart, st]; omega
  have htok : (st src m bs len p).tokens = window src bs len := rfl
  refine ⟨bs, bs + len, by simp [TS.size, st]; omega, rfl, by simp only [st]; omega, ?_, ?_⟩
  · intro a b ha hb2
    simp only [TS.getText, hb, htok, window_length]
    rw [if_neg (by omega)]
    congr 1
    have e : ((window src bs len).take ((b : Int) - bs + 1).toNat).drop ((a : Int) - bs).toNat =
        (List.range' a (b + 1 - a)).map (tok src) := by
      apply List.ext_getElem?
      intro i
      rw [List.getElem?_drop, List.getElem?_take, window_getElem?]
      have := window_getElem? src a (b + 1 - a) i
      rw [window] at this
      rw [this]
      by_cases h1 : i < b + 1 - a
      · rw [if_pos (by omega), if_pos (by omega), if_pos h1]
        congr 2; omega
      · rw [if_neg (by omega), if_neg h1]
    rw [e, textLoop_range]; rfl
  · intro a b hab
    simp only [TS.getText, hb, htok, window_length]
    rw [if_pos (by omega)]

example : (runOps (TS.newUnbuffered demo) [.lt 4]).map
    (fun s => (s.getText 0 2, s.getText 2 3, s.getText 0 4)) =
    some (some ['a', ' ', 'b'], some ['b'], none) := by decide +kernel

end Antlr.TokenProps

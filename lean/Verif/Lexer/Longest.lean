import Verif.Lexer.Prefix
import Verif.Lexer.Position

/-!
# The loop of the matcher finds the longest match of the first rule
-/

namespace Antlr.LexPaths
open Antlr Lexer LexSpec LexCache LexProps

set_option linter.unusedSectionVars false

section
variable {q : Option (List LexerAction) → Option (List LexerAction)} {D : Type} [InputData D]
  {d : D} {cs : List Int} {ix : Nat → Int} {sl : Nat → Nat → D}
  {env : Env D} {L : Lex D} {n : Nat} {st : ATNState}

/-! ## Threads -/

theorem live_range {a : Int} {v : Nat} {x : Thread} (h : Live env L cs ix n st a v x) :
    n ≤ v ∧ (n ≤ cs.length → v ≤ cs.length + 1) := by
  induction h with
  | start => omega
  | silent _ _ ih => exact ih
  | read _ _ _ _ _ ih => omega

theorem live_rtg {a : Int} {v : Nat} {x y : Thread} (h : Live env L cs ix n st a v x)
    (hs : Relation.ReflTransGen (Silent env.atn (holdsAt env L cs ix v) (cs.length < v)) x y) :
    Live env L cs ix n st a v y := by
  induction hs with
  | refl => exact h
  | tail _ h1 ih => exact .silent ih h1

theorem live_start {a : Int} {x : Thread} (h : Live env L cs ix n st a n x) :
    ∃ (i : Nat) (tr : Trans), st.transitions[i]? = some tr ∧ a = ((i + 1 : Nat) : Int) ∧
      Relation.ReflTransGen (Silent env.atn (holdsAt env L cs ix n) (cs.length < n)) ⟨tr.target, [], []⟩ x := by
  generalize hv : n = v at h
  have : ∀ {v a x}, Live env L cs ix n st a v x → n = v →
      ∃ (i : Nat) (tr : Trans), st.transitions[i]? = some tr ∧ a = ((i + 1 : Nat) : Int) ∧
      Relation.ReflTransGen (Silent env.atn (holdsAt env L cs ix n) (cs.length < n)) ⟨tr.target, [], []⟩ x := by
    intro v a x h
    induction h with
    | start hi => intro _; exact ⟨_, _, hi, rfl, .refl⟩
    | silent _ hs ih =>
      intro e
      obtain ⟨i, tr, h1, h2, h3⟩ := ih e
      subst e
      exact ⟨i, tr, h1, h2, h3.tail hs⟩
    | read hl _ _ _ _ _ => intro e; have := (live_range hl).1; omega
  subst hv
  exact this h rfl

theorem live_step {a : Int} {v : Nat} {z : Thread} (hv : n ≤ v) (h : Live env L cs ix n st a (v + 1) z) :
    ∃ x, Live env L cs ix n st a v x ∧ v ≤ cs.length ∧
      Steps env.atn (holdsAt env L cs ix (v + 1)) (cs.length < v + 1) (symAt cs v) x z := by
  have : ∀ {w a z}, Live env L cs ix n st a w z → w = v + 1 → ∃ x, Live env L cs ix n st a v x ∧ v ≤ cs.length ∧
      Steps env.atn (holdsAt env L cs ix (v + 1)) (cs.length < v + 1) (symAt cs v) x z := by
    intro w a z h
    induction h with
    | start => intro e; omega
    | silent _ hs ih =>
      intro e
      obtain ⟨x, h1, h2, s, tr, h3, h4, h5, h6⟩ := ih e
      subst e
      exact ⟨x, h1, h2, s, tr, h3, h4, h5, h6.tail hs⟩
    | read hl hn hs htr hr _ =>
      intro e
      have e : _ = v := Nat.succ.inj e
      subst e
      exact ⟨_, hl, hn, _, _, hs, htr, hr, .refl⟩
  exact this h rfl

theorem live_steps {a : Int} {v : Nat} {x z : Thread} (h : Live env L cs ix n st a v x) (hv : v ≤ cs.length)
    (hs : Steps env.atn (holdsAt env L cs ix (v + 1)) (cs.length < v + 1) (symAt cs v) x z) :
    Live env L cs ix n st a (v + 1) z := by
  obtain ⟨s, tr, h1, h2, h3, h4⟩ := hs
  exact live_rtg (.read h hv h1 h2 h3) h4

/-! ## Threads that have not come to a non-greedy decision -/

theorem eager_live {a : Int} {v : Nat} {x : Thread} (h : Eager env L cs ix n st a v x) : Live env L cs ix n st a v x := by
  induction h with
  | start h => exact .start h
  | silent _ hs _ ih => exact .silent ih hs
  | read _ h1 h2 h3 h4 _ ih => exact .read ih h1 h2 h3 h4

theorem live_eager (hg : Greedy env.atn) {a : Int} {v : Nat} {x : Thread} (h : Live env L cs ix n st a v x) :
    Eager env L cs ix n st a v x := by
  induction h with
  | start h => exact .start h
  | silent _ hs ih => exact .silent ih hs (hg.greedy _)
  | read _ h1 h2 h3 h4 ih => exact .read ih h1 h2 h3 h4 (hg.greedy _)

theorem eager_start {a : Int} {x : Thread} (h : Eager env L cs ix n st a n x) :
    ∃ (i : Nat) (tr : Trans), st.transitions[i]? = some tr ∧ a = ((i + 1 : Nat) : Int) ∧
      Relation.ReflTransGen (Quiet env.atn (holdsAt env L cs ix n) (cs.length < n)) ⟨tr.target, [], []⟩ x := by
  have : ∀ {v a x}, Eager env L cs ix n st a v x → n = v →
      ∃ (i : Nat) (tr : Trans), st.transitions[i]? = some tr ∧ a = ((i + 1 : Nat) : Int) ∧
      Relation.ReflTransGen (Quiet env.atn (holdsAt env L cs ix n) (cs.length < n)) ⟨tr.target, [], []⟩ x := by
    intro v a x h
    induction h with
    | start hi => intro _; exact ⟨_, _, hi, rfl, .refl⟩
    | silent _ hs hc ih =>
      intro e
      obtain ⟨i, tr, h1, h2, h3⟩ := ih e
      subst e
      exact ⟨i, tr, h1, h2, h3.tail ⟨hs, hc⟩⟩
    | read hl _ _ _ _ _ => intro e; have := (live_range (eager_live hl)).1; omega
  exact this h rfl

theorem eager_step {a : Int} {v : Nat} {z : Thread} (hv : n ≤ v) (h : Eager env L cs ix n st a (v + 1) z) :
    ∃ x, Eager env L cs ix n st a v x ∧ v ≤ cs.length ∧
      QuietSteps env.atn (holdsAt env L cs ix (v + 1)) (cs.length < v + 1) (symAt cs v) x z := by
  have : ∀ {w a z}, Eager env L cs ix n st a w z → w = v + 1 → ∃ x, Eager env L cs ix n st a v x ∧ v ≤ cs.length ∧
      QuietSteps env.atn (holdsAt env L cs ix (v + 1)) (cs.length < v + 1) (symAt cs v) x z := by
    intro w a z h
    induction h with
    | start => intro e; omega
    | silent _ hs hc ih =>
      intro e
      obtain ⟨x, h1, h2, s, tr, h3, h4, h5, h6, h7⟩ := ih e
      subst e
      exact ⟨x, h1, h2, s, tr, h3, h4, h5, h6, h7.tail ⟨hs, hc⟩⟩
    | read hl hn hs htr hr hc _ =>
      intro e
      have e : _ = v := Nat.succ.inj e
      subst e
      exact ⟨_, hl, hn, _, _, hs, htr, hr, hc, .refl⟩
  exact this h rfl

/-- Nothing is alive after a position where nothing worth a configuration is. -/
theorem eager_dead (hg : Tidy env.atn) {w : Nat} (hw : n ≤ w)
    (hd : ∀ a x, Eager env L cs ix n st a w x → ¬ Worth env.atn x) {a : Int} {v : Nat} {x : Thread} (hv : w < v)
    (h : Eager env L cs ix n st a v x) : False := by
  induction h with
  | start => omega
  | silent _ _ _ ih => exact ih hv
  | @read a v x s tr hl _ hs htr hr _ ih =>
    by_cases hwv : w = v
    · subst hwv
      obtain ⟨h1, h2, -⟩ := reads_worth hg hs htr hr
      exact hd _ _ hl ⟨s, hs, .inr ⟨h1, h2⟩⟩
    · exact ih (by omega)

/-! ## Configurations -/

/-- The configurations all stand for threads at `v`. -/
def Sound (q : Option (List LexerAction) → Option (List LexerAction)) (env : Env D) (L : Lex D) (cs : List Int)
    (ix : Nat → Int) (n : Nat) (st : ATNState) (v : Nat) (m : List Config) : Prop :=
  ∀ c ∈ m, ∃ x, Rep q c x ∧ Live env L cs ix n st c.alt v x ∧ Worth env.atn x

/-- ... and no place of a thread that has not come to a non-greedy decision is missing. -/
structure Inv (q : Option (List LexerAction) → Option (List LexerAction)) (env : Env D) (L : Lex D) (cs : List Int)
    (ix : Nat → Int) (n : Nat) (st : ATNState) (v : Nat) (m : List Config) : Prop where
  sorted : m.Pairwise fun a b => a.alt ≤ b.alt
  sound : Sound q env L cs ix n st v m
  complete : ∀ a x, Eager env L cs ix n st a v x → Worth env.atn x → ∃ c ∈ m, c.alt = a ∧ Ea c x

theorem good_sound {v : Nat} {m : List Config} (hs : m.Pairwise fun a b => a.alt ≤ b.alt)
    (h : Sound q env L cs ix n st v m) : LexCache.Good m :=
  ⟨fun c hc => by obtain ⟨x, h1, _⟩ := h c hc; exact h1.lin.plain, hs⟩

theorem sorted_abs {l : List Config} (h : l.Pairwise fun a b => a.alt ≤ b.alt) :
    (abs q l).Pairwise fun a b => a.alt ≤ b.alt := by
  refine List.Pairwise.sublist (firsts_sublist _) ?_
  rw [List.pairwise_map]; exact h

theorem mem_abs {l : List Config} {c : Config} : c ∈ abs q l ↔ ∃ c' ∈ l, er q c' = c := by
  rw [abs, mem_firsts, List.mem_map]

theorem spec_pred (R : Reads d cs ix sl) (hd : L.cur.input.data = d) {v : Nat} (hv : v ≤ cs.length) :
    ∀ r p b, predValue (fun r p c => env.sempred r p { L with cur := c }) r p true (at_ d cs ix v) = some b →
      (b = true ↔ holdsAt env L cs ix (v + 1) r p) := by
  intro r p b h
  simp only [predValue, evaluatePredicate, if_true] at h
  by_cases hlt : v < cs.length
  · rw [consume_at R hlt] at h
    simp only [Option.bind_some, Option.map_some, Option.some.injEq] at h
    rw [← h, holdsAt, hd, Nat.min_eq_left (by omega)]
  · have e : v = cs.length := by omega
    subst e
    have hc : (at_ d cs ix cs.length).consume = none := by
      simp only [Cursor.consume, at_, R.last]
      simp
    rw [hc] at h; simp at h

theorem sym_past (R : Reads d cs ix sl) {v : Nat} (hv : v ≤ cs.length) : symAt cs v = EOF ↔ cs.length < v + 1 := by
  rw [symAt_eof_iff R hv]; omega

theorem inv_step (hq : Blur q) (hg : Tidy env.atn) (R : Reads d cs ix sl) (hd : L.cur.input.data = d) {fc v : Nat}
    (hv : v ≤ cs.length) (hn : n ≤ v) {m : List Config} (h : Inv q env L cs ix n st v m) {r : List Config × Bool}
    (hr : pstep q env.atn (fun r p => predValue (fun r p c => env.sempred r p { L with cur := c }) r p true
      (at_ d cs ix v)) fc (symAt cs v) m = some r) : Inv q env L cs ix n st (v + 1) r.1 := by
  simp only [pstep, Option.map_eq_some_iff] at hr
  obtain ⟨⟨ys, b⟩, hr, rfl⟩ := hr
  have hp := spec_pred (env := env) (L := L) R hd hv
  have he := sym_past R hv
  obtain ⟨hgood, -⟩ := reachList_mem m (good_sound h.sorted h.sound) hr
  refine ⟨sorted_abs hgood.sorted, ?_, ?_⟩
  · intro c hc
    obtain ⟨y, hy, rfl⟩ := mem_abs.mp hc
    obtain ⟨c0, h1, h2, h3⟩ := reachList_sound hq hg hp he m (fun c hc => by
      obtain ⟨x, hx, _⟩ := h.sound c hc; exact ⟨x, hx⟩) hr y hy
    obtain ⟨x, hx, hl, -⟩ := h.sound c0 h1
    obtain ⟨z, z1, z2, z3⟩ := h3 x hx
    refine ⟨z, (rep_er hq).mpr z2, ?_, z3⟩
    show Live env L cs ix n st y.alt (v + 1) z
    rw [h2]
    exact live_steps hl hv z1
  · intro a z hl hw
    obtain ⟨x, hx, -, hs⟩ := eager_step hn hl
    have hxw : Worth env.atn x := by
      obtain ⟨s, tr, h1, h2, h3, -, -⟩ := hs
      obtain ⟨k1, k2, -⟩ := reads_worth hg h1 h2 h3
      exact ⟨s, h1, .inr ⟨k1, k2⟩⟩
    obtain ⟨c, c1, c2, c3⟩ := h.complete a x hx hxw
    obtain ⟨y, y1, y2, y3⟩ := reachList_complete hg hp he m hr c c1 x z c3 hs hw
    exact ⟨er q y, mem_abs.mpr ⟨y, y1, rfl⟩, y2.trans c2, ea_er.mpr y3⟩

theorem steps_past {atn : ATN} (hg : Tidy atn) {holds : Int → Int → Prop} {past : Prop} (hp : past) {x z : Thread}
    (hs : Steps atn holds past EOF x z) : Relation.ReflTransGen (Silent atn holds past) x z := by
  obtain ⟨s, tr, h1, h2, h3, h4⟩ := hs
  refine .head (.edge h1 (reads_worth hg h1 h2 h3).1 h2 ?_) h4
  cases tr with
  | atom t a => exact ⟨hp, h3, rfl⟩
  | range t a b => exact ⟨hp, h3, rfl⟩
  | set t a => exact ⟨hp, h3, rfl⟩
  | notSet t a => simp [ReadsSym, EOF] at h3
  | wildcard t => simp [ReadsSym, EOF] at h3
  | _ => simp [ReadsSym] at h3

theorem sound_past (hq : Blur q) (hg : Tidy env.atn) (R : Reads d cs ix sl) (hd : L.cur.input.data = d) {fc : Nat}
    {m : List Config} (h : Sound q env L cs ix n st (cs.length + 1) m) {r : List Config × Bool}
    (hr : pstep q env.atn (fun r p => predValue (fun r p c => env.sempred r p { L with cur := c }) r p true
      (at_ d cs ix cs.length)) fc EOF m = some r) : Sound q env L cs ix n st (cs.length + 1) r.1 := by
  simp only [pstep, Option.map_eq_some_iff] at hr
  obtain ⟨⟨ys, b⟩, hr, rfl⟩ := hr
  have hp := spec_pred (env := env) (L := L) R hd (Nat.le_refl _)
  have he : (EOF = EOF) ↔ cs.length < cs.length + 1 := by simp
  intro c hc
  obtain ⟨y, hy, rfl⟩ := mem_abs.mp hc
  obtain ⟨c0, h1, h2, h3⟩ := reachList_sound hq hg hp he m (fun c hc => by
    obtain ⟨x, hx, _⟩ := h c hc; exact ⟨x, hx⟩) hr y hy
  obtain ⟨x, hx, hl, -⟩ := h c0 h1
  obtain ⟨z, z1, z2, z3⟩ := h3 x hx
  refine ⟨z, (rep_er hq).mpr z2, ?_, z3⟩
  show Live env L cs ix n st y.alt (cs.length + 1) z
  rw [h2]
  exact live_rtg hl (steps_past hg (by omega) z1)

/-! ## The best match so far -/

/-- No rule matches up to `v` without a non-greedy decision. -/
def NoneAt (env : Env D) (L : Lex D) (cs : List Int) (ix : Nat → Int) (n : Nat) (st : ATNState) (v : Nat) : Prop :=
  ∀ a, ¬ EagerMatch env L cs ix n st a v

/-- `b` is the best match that ends at `v` or before. -/
def Best (q : Option (List LexerAction) → Option (List LexerAction)) (env : Env D) (L : Lex D) (cs : List Int)
    (ix : Nat → Int) (n : Nat) (st : ATNState) (v : Nat) : Option PAcc → Prop
  | none => ∀ w, w ≤ v → NoneAt env L cs ix n st w
  | some b => ∃ w a s t acts, w ≤ v ∧ Matches env L cs ix n st a w s acts ∧ env.atn.states[s]? = some t ∧
      env.atn.ruleToTokenType[t.ruleIndex]? = some b.ttype ∧ b.index = ix (min w cs.length) ∧
      b.line = lineOf cs (min w cs.length) ∧ b.col = colOf cs (min w cs.length) ∧ q b.exec = q (execFrom acts) ∧
      (∀ w', w < w' → w' ≤ v → NoneAt env L cs ix n st w') ∧
      ∀ a', EagerMatch env L cs ix n st a' w → a ≤ a'

theorem best_none {v : Nat} {p : Option PAcc} (h : Best q env L cs ix n st v p) {v' : Nat} (hv : v ≤ v')
    (hn : ∀ w, v < w → w ≤ v' → NoneAt env L cs ix n st w) : Best q env L cs ix n st v' p := by
  cases p with
  | none => intro w hw; exact if hc : w ≤ v then h w hc else hn w (by omega) hw
  | some b =>
    obtain ⟨w, a, s, t, acts, h1, h2, h3, h4, h5, h6, h7, h8, h9, h10⟩ := h
    refine ⟨w, a, s, t, acts, by omega, h2, h3, h4, h5, h6, h7, h8, ?_, h10⟩
    intro w' k1 k2
    exact if hc : w' ≤ v then h9 w' k1 hc else hn w' (by omega) k2

theorem stop_worth {s : Nat} {t : ATNState} {acts : List LexerAction} (h1 : env.atn.states[s]? = some t)
    (h2 : t.stateType = .ruleStop) : Worth env.atn ⟨s, [], acts⟩ := ⟨t, h1, .inl ⟨h2, rfl⟩⟩

theorem acc_none {v : Nat} {m : List Config} (h : Inv q env L cs ix n st v m)
    (ha : accOf q env.atn m = some none) : NoneAt env L cs ix n st v := by
  rintro a ⟨s, acts, t, hm, h4, h5⟩
  obtain ⟨c, h1, -, h3⟩ := h.complete _ _ hm (stop_worth h4 h5)
  exact accOf_none ha c h1 t (by rw [h3.state]; exact h4) h5

theorem sound_acc {v : Nat} {m : List Config} (hs : Sound q env L cs ix n st v m) {c : Config} (hc : c ∈ m) {t : ATNState}
    (ht : env.atn.states[c.state]? = some t) (hstop : t.stateType = .ruleStop) :
    ∃ acts, Matches env L cs ix n st c.alt v c.state acts ∧ q (execOf c) = q (execFrom acts) := by
  obtain ⟨x, h1, h2, t', h3, h4⟩ := hs c hc
  rw [← h1.state, ht] at h3
  injection h3 with h3; subst h3
  have hk : x.stack = [] := by
    rcases h4 with h4 | h4
    · exact h4.2
    · exact absurd hstop h4.1
  obtain ⟨xs, xk, xa⟩ := x
  simp only at hk; subst hk
  have := h1.state
  simp only at this; subst this
  exact ⟨xa, ⟨h2, t, ht, hstop⟩, h1.acts⟩

theorem best_note (hq : Blur q) {v : Nat} {m : List Config} (h : Inv q env L cs ix n st v m) {p : Option PAcc}
    (hb : (∀ w, w < v → n ≤ w → False) ∧ p = none ∨
      (0 < v ∧ Best q env L cs ix n st (v - 1) p))
    {a : Option (Int × Option (List LexerAction))} (ha : accOf q env.atn m = some a) {c : Cursor D} (d : D)
    (hc : c = at_ d cs ix (min v cs.length)) : Best q env L cs ix n st v (note a c p) := by
  cases a with
  | none =>
    have h0 := acc_none h ha
    simp only [note]
    rcases hb with ⟨h1, rfl⟩ | ⟨h1, h2⟩
    · intro w hw
      by_cases e : w = v
      · rw [e]; exact h0
      · rintro a ⟨s, acts, t, hm, -⟩
        exact h1 w (by omega) (live_range (eager_live hm)).1
    · refine best_none h2 (by omega) ?_
      intro w k1 k2
      rw [show w = v by omega]; exact h0
  | some x =>
    obtain ⟨tt, e⟩ := x
    obtain ⟨c0, h1, t, h2, h3, h4, h5, h6⟩ := accOf_some h.sorted ha
    obtain ⟨acts, h7, h8⟩ := sound_acc h.sound h1 h2 h3
    subst hc
    refine ⟨v, c0.alt, c0.state, t, acts, Nat.le_refl _, h7, h2, h4, rfl, rfl, rfl, ?_, ?_, ?_⟩
    · show q e = _
      rw [h5, hq.idem]; exact h8
    · intro w' k1 k2; omega
    · rintro a' ⟨s', acts', t', hm, k4, k5⟩
      obtain ⟨c', k1, k2, k3⟩ := h.complete _ _ hm (stop_worth k4 k5)
      rw [← k2]
      exact h6 c' k1 t' (by rw [k3.state]; exact k4) k5

/-! ## The loop -/

/-- What is known when the loop stops. -/
def Stopped (q : Option (List LexerAction) → Option (List LexerAction)) (env : Env D) (L : Lex D) (d : D) (cs : List Int)
    (ix : Nat → Int) (n : Nat) (st : ATNState) (x : PStop D) : Prop :=
  Best q env L cs ix n st (cs.length + 1) x.prev ∧ ∃ w, n ≤ w ∧ w ≤ cs.length ∧ x.cur = at_ d cs ix w ∧
    x.symbol = symAt cs w ∧ (w < cs.length → ∀ a z, Eager env L cs ix n st a (w + 1) z → ¬ Worth env.atn z) ∧
    (n < w → ∃ a z, Live env L cs ix n st a w z ∧ Worth env.atn z)

theorem run_past (hq : Blur q) (hg : Tidy env.atn) (R : Reads d cs ix sl) (hd : L.cur.input.data = d) {fc : Nat}
    (hn : n ≤ cs.length) (hno : NoneAt env L cs ix n st (cs.length + 1))
    (hw : n < cs.length → ∃ a z, Live env L cs ix n st a cs.length z ∧ Worth env.atn z) (fuel : Nat) :
    ∀ {m : List Config} {p : Option PAcc} {x : PStop D}, (m.Pairwise fun a b => a.alt ≤ b.alt) →
    Sound q env L cs ix n st (cs.length + 1) m → Best q env L cs ix n st (cs.length + 1) p →
    prun q env.atn (fun r p c => env.sempred r p { L with cur := c }) fc fuel (at_ d cs ix cs.length) m EOF p = some x →
    Stopped q env L d cs ix n st x := by
  induction fuel with
  | zero => intro m p x _ _ _ h; simp [prun] at h
  | succ fuel ih =>
    intro m p x hsort hs hb h
    have fin : ∀ p', Best q env L cs ix n st (cs.length + 1) p' →
        Stopped q env L d cs ix n st ⟨at_ d cs ix cs.length, p', EOF⟩ := fun p' hp' =>
      ⟨hp', cs.length, hn, Nat.le_refl _, rfl, ((symAt_eof_iff R (Nat.le_refl _)).mpr rfl).symm, by omega, hw⟩
    simp only [prun] at h
    obtain ⟨r, hr, h⟩ := Option.bind_eq_some_iff.mp h
    have hs' := sound_past hq hg R hd hs hr
    have hsort' : r.1.Pairwise fun a b => a.alt ≤ b.alt := by
      simp only [pstep, Option.map_eq_some_iff] at hr
      obtain ⟨⟨ys, b⟩, hr, rfl⟩ := hr
      exact sorted_abs (reachList_mem m (good_sound hsort hs) hr).1.sorted
    split at h
    · simp only [Option.some.injEq] at h
      rw [← h]; exact fin p hb
    · obtain ⟨a, ha, h⟩ := Option.bind_eq_some_iff.mp h
      cases a with
      | some y =>
        obtain ⟨tt, e⟩ := y
        obtain ⟨c0, h1, t, h2, h3, h4, h5, -⟩ := accOf_some hsort' ha
        obtain ⟨acts, h7, h8⟩ := sound_acc hs' h1 h2 h3
        simp only [ne_eq, not_true_eq_false, if_false, Option.bind_some, Option.isSome_some, decide_true, Bool.and_true,
          if_true, Option.some.injEq] at h
        rw [← h]
        refine fin _ ⟨cs.length + 1, c0.alt, c0.state, t, acts, Nat.le_refl _, h7, h2, h4, ?_, ?_, ?_, ?_, ?_, ?_⟩
        · rw [Nat.min_eq_right (by omega)]; rfl
        · rw [Nat.min_eq_right (by omega)]; rfl
        · rw [Nat.min_eq_right (by omega)]; rfl
        · show q e = _
          rw [h5, hq.idem]; exact h8
        · intro w' k1 k2; omega
        · intro a' hm; exact absurd hm (hno a')
      | none =>
        simp only [ne_eq, not_true_eq_false, if_false, Option.bind_some, Option.isSome_none, Bool.false_and,
          Bool.false_eq_true, la_at R (Nat.le_refl _), note] at h
        rw [(symAt_eof_iff R (Nat.le_refl _)).mpr rfl] at h
        exact ih hsort' hs' hb h

theorem run_spec (hq : Blur q) (hg : Tidy env.atn) (R : Reads d cs ix sl) (hd : L.cur.input.data = d) {fc : Nat}
    (fuel : Nat) : ∀ {v : Nat} {m : List Config} {p : Option PAcc} {x : PStop D}, n ≤ v → v ≤ cs.length →
    Inv q env L cs ix n st v m → Best q env L cs ix n st v p → (n < v → m ≠ []) →
    prun q env.atn (fun r p c => env.sempred r p { L with cur := c }) fc fuel (at_ d cs ix v) m (symAt cs v) p = some x →
    Stopped q env L d cs ix n st x := by
  induction fuel with
  | zero => intro v m p x _ _ _ _ _ h; simp [prun] at h
  | succ fuel ih =>
    intro v m p x hnv hv hi hb hne h
    simp only [prun] at h
    obtain ⟨r, hr, h⟩ := Option.bind_eq_some_iff.mp h
    have hi' := inv_step hq hg R hd hv hnv hi hr
    have hwv : n < v → ∃ a z, Live env L cs ix n st a v z ∧ Worth env.atn z := by
      intro h0
      cases hm : m with
      | nil => exact absurd hm (hne h0)
      | cons c l =>
        obtain ⟨z, -, z2, z3⟩ := hi.sound c (by simp [hm])
        exact ⟨_, z, z2, z3⟩
    split at h
    · rename_i h0
      simp only [Option.some.injEq] at h
      have hdead : ∀ a z, Eager env L cs ix n st a (v + 1) z → ¬ Worth env.atn z := by
        intro a z hl hw
        obtain ⟨c, hc, -⟩ := hi'.complete a z hl hw
        rw [h0] at hc; simp at hc
      rw [← h]
      refine ⟨best_none hb (by omega) ?_, v, hnv, hv, rfl, rfl, fun _ a z => hdead a z, hwv⟩
      rintro w k1 k2 a ⟨s, acts, t, hm, k3, k4⟩
      by_cases e : w = v + 1
      · subst e; exact hdead _ _ hm (stop_worth k3 k4)
      · exact eager_dead hg (w := v + 1) (by omega) hdead (by omega) hm
    · rename_i hnil
      obtain ⟨a, ha, h⟩ := Option.bind_eq_some_iff.mp h
      have hnote : ∀ c : Cursor D, c = at_ d cs ix (min (v + 1) cs.length) →
          Best q env L cs ix n st (v + 1) (note a c p) := fun c hc =>
        best_note hq hi' (.inr ⟨by omega, by simpa using hb⟩) ha d hc
      by_cases hlt : v < cs.length
      · have hsym : symAt cs v ≠ EOF := by
          intro h0; have := (symAt_eof_iff R hv).mp h0; omega
        simp only [ne_eq, hsym, not_false_eq_true, if_true, consume_at R hlt, Option.bind_some, decide_false,
          Bool.and_false, Bool.false_eq_true, if_false, la_at R (show v + 1 ≤ cs.length by omega)] at h
        exact ih (by omega) (by omega) hi' (hnote _ (by rw [Nat.min_eq_left (by omega)])) (fun _ => hnil) h
      · have e : v = cs.length := by omega
        subst e
        have hsym : symAt cs cs.length = EOF := (symAt_eof_iff R hv).mpr rfl
        simp only [hsym, ne_eq, not_true_eq_false, if_false, Option.bind_some, decide_true, Bool.and_true,
          la_at R hv] at h
        have hb' := hnote (at_ d cs ix cs.length) (by rw [Nat.min_eq_right (by omega)])
        cases a with
        | none =>
          simp only [Option.isSome_none, Bool.false_eq_true, if_false] at h
          exact run_past hq hg R hd hnv (acc_none hi' ha) hwv fuel hi'.sorted hi'.sound hb' h
        | some y =>
          simp only [Option.isSome_some, if_true, Option.some.injEq] at h
          rw [← h]
          exact ⟨hb', cs.length, hnv, Nat.le_refl _, rfl, hsym.symm, by omega, hwv⟩

/-- The matcher without a cache. -/
theorem pmatch_spec (hq : Blur q) (hg : Tidy env.atn) (R : Reads d cs ix sl) (hn : n ≤ cs.length)
    (hc : L.cur = at_ d cs ix n) {fc fe : Nat} {ss : Nat} (hss : env.atn.modeToStartState[L.mode]? = some ss)
    (hst : env.atn.states[ss]? = some st) {o : Option (PStop D)} (h : pmatch q env fc fe L = some o) :
    ∃ x, o = some x ∧ Stopped q env L d cs ix n st x := by
  have hd : L.cur.input.data = d := by rw [hc]; rfl
  simp only [pmatch, hss, hst, Option.bind_some] at h
  obtain ⟨⟨ys, b⟩, hy, h⟩ := Option.bind_eq_some_iff.mp h
  obtain ⟨a, ha, h⟩ := Option.bind_eq_some_iff.mp h
  obtain ⟨t, ht, h⟩ := Option.bind_eq_some_iff.mp h
  simp only [Option.map_eq_some_iff] at h
  obtain ⟨x, hx, rfl⟩ := h
  refine ⟨x, rfl, ?_⟩
  have hp : ∀ r p v, predValue (fun r p c => env.sempred r p { L with cur := c }) r p false L.cur = some v →
      (v = true ↔ holdsAt env L cs ix n r p) := by
    intro r p v hv
    simp only [predValue, evaluatePredicate, Bool.false_eq_true, if_false, Option.map_some, Option.some.injEq] at hv
    rw [← hv, holdsAt, hd, Nat.min_eq_left hn, ← hc]
  have hpast : ¬ (cs.length < n) := by omega
  have hi : Inv q env L cs ix n st n (abs q ys) := by
    refine ⟨sorted_abs (startList_mem _ hy).1.sorted, ?_, ?_⟩
    · intro c hc
      obtain ⟨y, hy', rfl⟩ := mem_abs.mp hc
      obtain ⟨j, tr, z, h1, h2, h3, h4, h5⟩ := startList_sound hq hg hp hpast _ hy y hy'
      refine ⟨z, (rep_er hq).mpr h4, ?_, h5⟩
      show Live env L cs ix n st y.alt n z
      rw [h2, Nat.zero_add]
      exact live_rtg (.start h1) h3
    · intro a z hl hw
      obtain ⟨i, tr, h1, h2, h3⟩ := eager_start hl
      obtain ⟨y, y1, y2, y3⟩ := startList_complete hg hp hpast _ hy i tr z h1 h3 hw
      refine ⟨er q y, mem_abs.mpr ⟨y, y1, rfl⟩, ?_, ea_er.mpr y3⟩
      show y.alt = a
      rw [y2, h2, Nat.zero_add]
  have hb : Best q env L cs ix n st n (note a L.cur none) :=
    best_note hq hi (.inl ⟨by omega, rfl⟩) ha d (by rw [Nat.min_eq_left hn]; exact hc)
  rw [hc, la_at R hn] at ht
  injection ht with ht
  subst ht
  rw [hc] at hx
  rw [hc] at hb
  exact run_spec hq hg R hd fe (Nat.le_refl _) hn hi hb (by omega) hx

end

end Antlr.LexPaths

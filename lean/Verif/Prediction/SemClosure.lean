import Verif.Prediction.SemConfigs

/-!
# Helper lemmas: `closure` returns, with predicates
-/

namespace Antlr.Prediction.Sem
open Antlr StackSpec ConfigSet PC PredictionSpec LL1Spec

variable {I : Type}

/-- The configurations that occur. -/
structure Sane (full : Bool) (T : Int → Pos → Prop) (S : List SC) (κ : ConfigType) (c : Config) : Prop where
  sound : Sound full T c
  flat : full = true → c.reaches ≤ 0
  kind : c.kind = .base ∨ c.kind = κ
  sem : full = false → c.sem ∈ S

/-- The configurations that are added. -/
def Fine (atn : ATN) (full : Bool) (T : Int → Pos → Prop) (c : Config) : Prop := Sound full T c ∧ Ripe atn c

/-- What predicates need: the stream can be set back to evaluate them, or there are finitely many to be noted. -/
def Allowed [TokStream I] (L : Local I) (full : Bool) (S : List SC) (Z : I → Prop) : Prop :=
  (full = true → Back L.startIndex Z) ∧ (full = false → Stays L.atn L.ord S)

/-- The recursive call returns, if `m` suffices for what is left to do. -/
def Recurs [TokStream I] (L : Local I) (N : Nat) (full eof d : Bool) (T : Int → Pos → Prop) (S : List SC) (κ : ConfigType)
    (Z : I → Prop) (m : Nat) (rec : Rec I) : Prop :=
  ∀ c collect depth (w : Work I) k, Sane full T S κ c → Open full d (Fine L.atn full T) w.configs w.mc → Z w.inp →
    (collect = true → Allowed L full S Z) → ¬ CChain L.atn eof k c → k + unseen L.atn S c.alt κ w.busy * (N + 1) ≤ m →
    ∃ w', rec c collect depth w = some w' ∧ Open full d (Fine L.atn full T) w'.configs w'.mc ∧ Z w'.inp ∧
      ∀ b ∈ w.busy, b ∈ w'.busy

/-- Does `closure_work` go on from the configuration? -/
def Works (full : Bool) (st : ATNState) (c : Config) : Prop :=
  st.stateType ≠ .ruleStop ∨ (full = false ∧ c.ctx = EMPTY)

section
variable [TokStream I] {L : Local I} {N : Nat} {full eof d : Bool} {T : Int → Pos → Prop} {S : List SC} {κ : ConfigType}
  {Z : I → Prop} {m : Nat} {rec : Rec I}

theorem retOk {c : Config} (hg : Moves L.atn full eof T) (hs : Sound full T c) :
    ∀ s, HasStack c.ctx s → ∀ r ∈ s, RetOk L.atn r := by
  intro s h r hr
  have h0 := hs.pos s h r hr
  have h1 := (hg.inside _ _ (hs.all s h)).2 (asUsize r) (List.mem_map_of_mem hr)
  refine ⟨h0, ?_⟩
  -- return states are small
  have hlt : ∀ (p : PC), WF p → ∀ s, HasStack p s → ∀ r ∈ s, r < EMPTY_RS := by
    intro p hp
    induction hp with
    | empty => intro s h; cases h; simp
    | single a b ih =>
      intro s h
      cases h with
      | pushS h =>
        intro x hx
        rcases List.mem_cons.1 hx with rfl | hx
        · exact a
        · exact ih _ h x hx
    | @array l a1 a2 a3 a4 a5 ih =>
      intro s h
      cases h with
      | bottomA => simp
      | pushA h h' =>
        intro x hx
        rcases List.mem_cons.1 hx with rfl | hx
        · exact ((wf_entries (.array a1 a2 a3 a4 a5)).2 _ h).1
        · exact ih _ _ h _ h' x hx
  have h2 := hlt _ hs.fit.wf s h r hr
  rwa [asUsize_small _ h0 (by simp only [EMPTY_RS] at h2; omega)] at h1

theorem workStep_total (ha : Tame L.atn) (hl : NoLoop L.atn N) (hg : Moves L.atn full eof T)
    (hst0 : ∃ st, L.atn.states[L.atnStart]? = some st) (hr : Recurs L N full eof d T S κ Z m rec)
    {c : Config} {collect : Bool} {depth : Int} {st : ATNState} {tr : Trans} {i k : Nat} {w : Work I}
    (hs : Sane full T S κ c) (hst : L.atn.states[c.state]? = some st) (hw : Works full st c)
    (htr : tr ∈ st.transitions) (ho : Open full d (Fine L.atn full T) w.configs w.mc) (hz : Z w.inp)
    (hc : collect = true → Allowed L full S Z) (hk : ¬ CChain L.atn eof (k + 1) c)
    (hm : k + unseen L.atn S c.alt κ w.busy * (N + 1) ≤ m) :
    ∃ w', workStep L full eof rec c collect depth st tr i w = some w' ∧
      Open full d (Fine L.atn full T) w'.configs w'.mc ∧ Z w'.inp ∧ ∀ b ∈ w.busy, b ∈ w'.busy := by
  unfold workStep
  obtain ⟨drop, hdrop⟩ : ∃ b, (if i = 0 then canDrop L.atn c else some false) = some b := by
    split
    · exact canDrop_total ha hst hs.sound.fit.wf (retOk hg hs.sound)
    · exact ⟨_, rfl⟩
  rw [hdrop, Option.bind_some]
  cases drop with
  | true => exact ⟨w, rfl, ho, hz, fun _ h => h⟩
  | false =>
  have hcc : (!isAction tr && collect) = true → collect = true := by
    intro h; rw [Bool.and_eq_true] at h; exact h.2
  obtain ⟨o, inp', h1, h2, h3⟩ := epsilonTarget_sem (full := full) (eof := eof) ha hst htr (!isAction tr && collect)
    (decide (depth = 0)) (Z := Z) (fun hf h => (hc (hcc h)).1 hf) hz
  simp only [Bool.false_eq_true, if_false, h1, Option.bind_some]
  cases o with
  | none => exact ⟨_, rfl, ho, h2, fun _ h => h⟩
  | some c' =>
    dsimp only
    obtain ⟨h4, h5⟩ := h3 c' rfl
    have hsem : full = false → c'.sem ∈ S := fun hf => h5 hf S (hs.sem hf) (fun h => (hc (hcc h)).2 hf)
    obtain ⟨a1, a2, a3, -⟩ := h4.same
    by_cases hstop : st.stateType = .ruleStop
    · obtain ⟨hfull, hctx⟩ := hw.resolve_left (fun h => h hstop)
      obtain ⟨f, x, rfl⟩ := ha.stops _ _ hst hstop _ htr
      have ec : c'.state = f ∧ c'.ctx = c.ctx := by
        rcases h4 with ⟨s, -, rfl⟩ | ⟨t, f, r, p, h, -⟩ | ⟨-, h, -⟩
        · exact ⟨rfl, rfl⟩
        · simp at h
        · simp [Trans.isEpsilon] at h
      rw [if_pos hstop, if_neg (by simp [hfull])]
      obtain ⟨c2, h6, b1, b2, b3, b4, b5⟩ : ∃ c2, intoOuter L (.epsilon f x) c' = some c2 ∧ c2.state = f ∧ c2.ctx = EMPTY ∧
          c2.alt = c.alt ∧ c2.sem = c'.sem ∧ c2.kind = c.kind := by
        unfold intoOuter
        split
        · obtain ⟨s0, e⟩ := hst0
          simp only [outermostReturn, Option.bind_some, e, Option.map_some]
          exact ⟨_, rfl, ec.1, ec.2.trans hctx, a1, rfl, a3⟩
        · exact ⟨_, rfl, ec.1, ec.2.trans hctx, a1, rfl, a3⟩
      rw [h6, Option.bind_some]
      split
      · exact ⟨_, rfl, ho, h2, fun _ h => h⟩
      · rename_i hbusy
        rw [Bool.not_eq_true] at hbusy
        have hs2 : Sane full T S κ c2 := by
          refine ⟨hs.sound.leave hg.toGoes hfull hctx hst hstop htr b1 (b2.trans hctx.symm) b3, fun e => ?_, ?_, ?_⟩
          · rw [hfull] at e; simp at e
          · rw [b5]; exact hs.kind
          · rw [b4]; exact hsem
        have hlt := unseen_cons (atn := L.atn) (a := c.alt) (κ := κ) (b := w.busy) (S := S)
          (c := c2) (by rw [b1]; exact ha.targets _ _ hst _ htr) b3 b2 (hs2.sem hfull) hs2.kind hbusy
        obtain ⟨w', g1, g2, g3, g4⟩ := hr c2 (!isAction (Trans.epsilon f x) && collect) (depth - 1)
          { configs := { w.configs with dips := true }, busy := c2 :: w.busy, mc := w.mc, inp := inp' } N hs2
          ⟨ho.cache, ho.holds.imp fun _ h => ⟨h.1.dips true, h.2⟩, fun e => by rw [hfull] at e; simp at e,
            fun e => by rw [hfull] at e; simp at e⟩ h2 (fun h => hc (hcc h))
          (cchain_empty ha hl hg hs2.sound b2) (by
            have := Nat.mul_le_mul_right (N + 1) hlt
            rw [Nat.succ_mul] at this
            dsimp only at this ⊢
            rw [b3]
            omega)
        exact ⟨w', g1, g2, g3, fun b hb => g4 b (List.mem_cons_of_mem _ hb)⟩
    · rw [if_neg hstop]
      have hs' : Sane full T S κ c' := by
        refine ⟨hs.sound.move ha hg.toGoes hst hstop htr h4, ?_, ?_, hsem⟩
        · rw [a2]; exact hs.flat
        · rw [a3]; exact hs.kind
      split
      · exact ⟨_, rfl, ho, h2, fun _ h => h⟩
      · have hk' : ¬ CChain L.atn eof k c' := fun h => hk ⟨c', .edge hst hstop htr h4, h⟩
        have hsub : ∀ b ∈ w.busy, b ∈ (if tr.isEpsilon then w.busy else c' :: w.busy) := by
          intro b hb; split
          · exact hb
          · exact List.mem_cons_of_mem _ hb
        obtain ⟨w', g1, g2, g3, g4⟩ := hr c' (!isAction tr && collect) (if isRule tr ∧ 0 ≤ depth then depth + 1 else depth)
          { w with busy := if tr.isEpsilon then w.busy else c' :: w.busy, inp := inp' } k hs' ho h2 (fun h => hc (hcc h)) hk'
          (by
            have h1 := unseen_mono (atn := L.atn) (S := S) (a := c.alt) (κ := κ) hsub
            have h2 := Nat.mul_le_mul_right (N + 1) h1
            rw [a1]
            dsimp only
            omega)
        exact ⟨w', g1, g2, g3, fun b hb => g4 b (hsub b hb)⟩

theorem workLoop_total (ha : Tame L.atn) (hl : NoLoop L.atn N) (hg : Moves L.atn full eof T)
    (hst0 : ∃ st, L.atn.states[L.atnStart]? = some st) (hr : Recurs L N full eof d T S κ Z m rec)
    {c : Config} {collect : Bool} {depth : Int} {st : ATNState} {k : Nat}
    (hs : Sane full T S κ c) (hst : L.atn.states[c.state]? = some st) (hw : Works full st c)
    (hc : collect = true → Allowed L full S Z) (hk : ¬ CChain L.atn eof (k + 1) c) (trs : List (Trans × Nat))
    (htr : ∀ x ∈ trs, x.1 ∈ st.transitions) {w : Work I}
    (ho : Open full d (Fine L.atn full T) w.configs w.mc) (hz : Z w.inp)
    (hm : k + unseen L.atn S c.alt κ w.busy * (N + 1) ≤ m) :
    ∃ w', workLoop L full eof rec c collect depth st trs w = some w' ∧
      Open full d (Fine L.atn full T) w'.configs w'.mc ∧ Z w'.inp ∧ ∀ b ∈ w.busy, b ∈ w'.busy := by
  induction trs generalizing w with
  | nil => exact ⟨w, rfl, ho, hz, fun _ h => h⟩
  | cons x trs ih =>
    obtain ⟨tr, i⟩ := x
    obtain ⟨w1, h1, h2, z2, h3⟩ := workStep_total (collect := collect) (depth := depth) (i := i) ha hl hg hst0 hr hs hst hw
      (htr (tr, i) (by simp)) ho hz hc hk hm
    obtain ⟨w2, g1, g2, z3, g3⟩ := ih (fun x hx => htr x (by simp [hx])) h2 z2 (by
      have := Nat.mul_le_mul_right (N + 1) (unseen_mono (atn := L.atn) (S := S) (a := c.alt) (κ := κ) h3)
      omega)
    exact ⟨w2, by rw [workLoop, h1, Option.bind_some]; exact g1, g2, z3, fun b hb => g3 b (h3 b hb)⟩

theorem closureWork_total (ha : Tame L.atn) (hl : NoLoop L.atn N) (hg : Moves L.atn full eof T)
    (hst0 : ∃ st, L.atn.states[L.atnStart]? = some st) (hd : full = false → d = true)
    (hr : Recurs L N full eof d T S κ Z m rec) {c : Config} {collect : Bool} {depth : Int} {st : ATNState} {k : Nat}
    (hs : Sane full T S κ c) (hst : L.atn.states[c.state]? = some st) (hw : Works full st c)
    (hc : collect = true → Allowed L full S Z) (hk : ¬ CChain L.atn eof (k + 1) c) {w : Work I}
    (ho : Open full d (Fine L.atn full T) w.configs w.mc) (hz : Z w.inp)
    (hm : k + unseen L.atn S c.alt κ w.busy * (N + 1) ≤ m) :
    ∃ w', closureWork L full eof rec c collect depth w = some w' ∧
      Open full d (Fine L.atn full T) w'.configs w'.mc ∧ Z w'.inp ∧ ∀ b ∈ w.busy, b ∈ w'.busy := by
  have hmem : ∀ x ∈ st.transitions.zipIdx, x.1 ∈ st.transitions := by
    intro x hx
    obtain ⟨a, i⟩ := x
    exact List.mem_of_getElem? (List.mem_zipIdx_iff_getElem?.1 hx)
  have first : ∃ w1, (if st.epsilonOnly then some w else w.add c) = some w1 ∧
      Open full d (Fine L.atn full T) w1.configs w1.mc ∧ w1.busy = w.busy ∧ w1.inp = w.inp := by
    split
    · exact ⟨w, rfl, ho, rfl, rfl⟩
    · rename_i he
      rw [Bool.not_eq_true] at he
      refine add_total hd ho hs.sound.fit hs.flat ⟨hs.sound, fun h => ?_, .inr ⟨st, hst, he⟩⟩
      rcases hw with hw | hw
      · exact absurd ((isStop_iff hst).1 h) hw
      · exact hw.2
  obtain ⟨w1, h1, h2, h3, h4⟩ := first
  obtain ⟨w2, g1, g2, g3, g4⟩ := workLoop_total (collect := collect) (depth := depth) ha hl hg hst0 hr hs hst hw hc hk _ hmem h2
    (by rw [h4]; exact hz) (by rw [h3]; exact hm)
  exact ⟨w2, by rw [closureWork, hst, Option.bind_some, h1, Option.bind_some]; exact g1, g2, g3, fun b hb => g4 b (h3 ▸ hb)⟩

theorem popLoop_total (hr : Recurs L N full eof d T S κ Z m rec) {c : Config} {collect : Bool} {depth : Int} {k : Nat}
    (es : List (Option PC × Int)) (hes : EWF es)
    (hq : ∀ p r, (some p, r) ∈ es → r ≠ EMPTY_RS →
      Sane full T S κ { state := asUsize r, alt := c.alt, ctx := p, sem := c.sem, reaches := c.reaches } ∧
      ¬ CChain L.atn eof k { state := asUsize r, alt := c.alt, ctx := p, sem := c.sem, reaches := c.reaches })
    (hc : collect = true → Allowed L full S Z)
    {w : Work I} (ho : Open full d (Fine L.atn full T) w.configs w.mc) (hz : Z w.inp)
    (hm : k + unseen L.atn S c.alt κ w.busy * (N + 1) ≤ m) :
    ∃ w', popLoop rec c collect depth es w = some w' ∧ Open full d (Fine L.atn full T) w'.configs w'.mc ∧ Z w'.inp ∧
      ∀ b ∈ w.busy, b ∈ w'.busy := by
  induction es generalizing w with
  | nil => exact ⟨w, rfl, ho, hz, fun _ h => h⟩
  | cons e es ih =>
    obtain ⟨p, r⟩ := e
    have hes' : EWF es := ⟨(List.pairwise_cons.1 hes.1).2, fun e he => hes.2 e (List.mem_cons_of_mem _ he)⟩
    rw [popLoop]
    by_cases hre : r = EMPTY_RS
    · rw [if_pos hre]
      have : es = [] := by
        cases es with
        | nil => rfl
        | cons e' es =>
          exfalso
          have h1 := (List.pairwise_cons.1 hes.1).1 e' (by simp)
          have h2 := hes.2 e' (by simp)
          obtain ⟨o, r'⟩ := e'
          cases o with
          | none => simp only [EOk] at h2; dsimp only at h1; omega
          | some q => simp only [EOk] at h2; dsimp only at h1; omega
      subst this
      exact ⟨w, rfl, ho, hz, fun _ h => h⟩
    · rw [if_neg hre]
      cases p with
      | none => exact absurd (hes.2 (none, r) (by simp)) hre
      | some p =>
        rw [Option.bind_some]
        obtain ⟨q1, q2⟩ := hq p r (by simp) hre
        obtain ⟨w1, h1, h2, z1, h3⟩ := hr _ collect (depth - 1) w k q1 ho hz hc q2 hm
        obtain ⟨w2, g1, g2, z2, g3⟩ := ih hes' (fun p r hm => hq p r (by simp [hm])) h2 z1 (by
          have := Nat.mul_le_mul_right (N + 1) (unseen_mono (atn := L.atn) (S := S) (a := c.alt) (κ := κ) h3)
          omega)
        exact ⟨w2, by rw [h1, Option.bind_some]; exact g1, g2, z2, fun b hb => g3 b (h3 b hb)⟩

theorem check_total (ha : Tame L.atn) (hl : NoLoop L.atn N) (hg : Moves L.atn full eof T)
    (hst0 : ∃ st, L.atn.states[L.atnStart]? = some st) (hd : full = false → d = true) (m : Nat) :
    Recurs L N full eof d T S κ Z m (closureCheck L full eof m) := by
  induction m with
  | zero =>
    intro c collect depth w k _ _ _ _ hk hm
    have : k = 0 := by omega
    subst this
    exact absurd trivial hk
  | succ m ih =>
    intro c collect depth w k hs ho hz hc hk hm
    cases k with
    | zero => exact absurd trivial hk
    | succ k =>
    have hm' : k + unseen L.atn S c.alt κ w.busy * (N + 1) ≤ m := by omega
    obtain ⟨st, hst⟩ := hs.sound.state hg
    rw [closureCheck, hst, Option.bind_some]
    by_cases hstop : st.stateType = .ruleStop
    · rw [if_pos hstop]
      have hisStop : isStop L.atn c = true := (isStop_iff hst).2 hstop
      cases hem : c.ctx.isEmpty with
      | true =>
        have hE := (wf_isEmpty hs.sound.fit.wf).1 hem
        simp only [Bool.not_true, Bool.false_eq_true, if_false]
        cases full with
        | true =>
          simp only [if_true]
          obtain ⟨w', h1, h2, h3, h4⟩ := add_total hd ho hs.sound.fit hs.flat ⟨hs.sound, fun _ => hE, .inl hisStop⟩
          exact ⟨w', h1, h2, h4 ▸ hz, fun b hb => h3 ▸ hb⟩
        | false =>
          simp only [Bool.false_eq_true, if_false]
          exact closureWork_total ha hl hg hst0 hd ih hs hst (.inr ⟨rfl, hE⟩) hc hk ho hz hm'
      | false =>
        simp only [Bool.not_false, if_true]
        have first : ∃ w1, (if c.ctx.hasEmptyPath then
              if full then w.add { c with ctx := PC.EMPTY }
              else closureWork L full eof (closureCheck L full eof m) c collect depth w
            else some w) = some w1 ∧ Open full d (Fine L.atn full T) w1.configs w1.mc ∧ Z w1.inp ∧
              ∀ b ∈ w.busy, b ∈ w1.busy := by
          split
          · rename_i hpath
            cases full with
            | true =>
              simp only [if_true]
              have hb := (StackProps.C29_has_empty_path c.ctx hs.sound.fit.wf).1.1 hpath
              obtain ⟨w', h1, h2, h3, h4⟩ := add_total (c := { c with ctx := PC.EMPTY }) hd ho (Fit.empty _) hs.flat
                ⟨⟨Fit.empty _, fun s h => by cases h; simp, fun s h => by cases h; exact hs.sound.all [] hb⟩,
                  fun _ => rfl, .inl hisStop⟩
              exact ⟨w', h1, h2, h4 ▸ hz, fun b hb => h3 ▸ hb⟩
            | false =>
              simp only [Bool.false_eq_true, if_false]
              exact closureWork_total ha hl hg hst0 hd ih hs hst
                (.inr ⟨rfl, loc_path (hs.sound.fit.loc rfl) hs.sound.fit.wf hpath⟩) hc hk ho hz hm'
          · exact ⟨w, rfl, ho, hz, fun _ h => h⟩
        obtain ⟨w1, h1, h2, z1, h3⟩ := first
        obtain ⟨w2, g1, g2, z2, g3⟩ := popLoop_total (c := c) (collect := collect) (depth := depth) (k := k) ih c.ctx.entries
          (wf_entries hs.sound.fit.wf)
          (fun p r hmem hne => ⟨⟨hs.sound.pop hg.toGoes hst hstop hem hmem, hs.flat, .inl rfl, hs.sem⟩,
            fun h => hk ⟨_, .pop hst hstop hem hmem hne, h⟩⟩) hc h2 z1 (by
            have := Nat.mul_le_mul_right (N + 1) (unseen_mono (atn := L.atn) (S := S) (a := c.alt) (κ := κ) h3)
            omega)
        exact ⟨w2, by rw [h1, Option.bind_some]; exact g1, g2, z2, fun b hb => g3 b (h3 b hb)⟩
    · rw [if_neg hstop]
      exact closureWork_total ha hl hg hst0 hd ih hs hst (.inl hstop) hc hk ho hz hm'

/-- `closure` returns. -/
theorem closure_returns (ha : Tame L.atn) (hl : NoLoop L.atn N) (hg : Moves L.atn full eof T)
    (hst0 : ∃ st, L.atn.states[L.atnStart]? = some st) (hd : full = false → d = true) {c : Config}
    (hs : Sane full T S κ c) {collect : Bool} (hc : collect = true → Allowed L full S Z)
    {w : Work I} (ho : Open full d (Fine L.atn full T) w.configs w.mc) (hz : Z w.inp) :
    ∃ w', Returns (fun m => closure L m full eof c collect w) w' ∧ Open full d (Fine L.atn full T) w'.configs w'.mc ∧
      Z w'.inp := by
  obtain ⟨k, hk⟩ := cchain_ex (eof := eof) ha hl hg hs.sound
  obtain ⟨w', h1, h2, h3, -⟩ := check_total (N := N) (eof := eof) (κ := κ) ha hl hg hst0 hd
    (k + (outs L.atn S c.alt κ).length * (N + 1)) c collect 0 w k hs ho hz hc hk (by
    have : unseen L.atn S c.alt κ w.busy ≤ (outs L.atn S c.alt κ).length := List.countP_le_length
    have := Nat.mul_le_mul_right (N + 1) this
    omega)
  refine ⟨w', .of (m := k + (outs L.atn S c.alt κ).length * (N + 1)) (fun _ _ hm => closure_below hm _ _ _) ?_, h2, h3⟩
  rw [closure, h1, Option.bind_some, if_neg]
  intro h
  rw [Bool.and_eq_true] at h
  rw [h2.flat h.1] at h; simp at h

end

end Antlr.Prediction.Sem

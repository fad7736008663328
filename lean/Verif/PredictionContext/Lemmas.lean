import Verif.Prelude
import Verif.PredictionContext.Spec

namespace Antlr
open StackSpec PC

/-! ### Stacks through entries -/

/-- Meaning of one (parent, return state) pair. -/
def EDen (w : Bool) (e : Option PC × Int) (s : List Int) : Prop :=
  match e.1 with
  | none => e.2 = EMPTY_RS ∧ (w = true ∨ s = [])
  | some p => ∃ s', s = e.2 :: s' ∧ Den w p s'

theorem hasStack_iff (c : PC) (s : List Int) :
    HasStack c s ↔ ∃ e ∈ c.entries, EDen false e s := by
  constructor
  · intro h
    cases h with
    | bottomS => exact ⟨_, by simp [entries]; rfl, by simp [EDen]⟩
    | pushS h => exact ⟨_, by simp [entries]; rfl, by simp [EDen, Den, h]⟩
    | bottomA h => exact ⟨_, h, by simp [EDen]⟩
    | pushA h h' => exact ⟨_, h, by simp [EDen, Den, h']⟩
  · rintro ⟨⟨p, r⟩, he, hs⟩
    cases p with
    | none =>
      simp [EDen] at hs
      obtain ⟨rfl, rfl⟩ := hs
      cases c with
      | single p' r' =>
        simp [entries] at he
        obtain ⟨rfl, rfl⟩ := he
        exact .bottomS
      | array l => exact .bottomA he
    | some p =>
      simp [EDen, Den] at hs
      obtain ⟨s', rfl, hs⟩ := hs
      cases c with
      | single p' r' =>
        simp [entries] at he
        obtain ⟨rfl, rfl⟩ := he
        exact .pushS hs
      | array l => exact .pushA he hs

theorem den_iff (w : Bool) (c : PC) (s : List Int) :
    Den w c s ↔ ∃ e ∈ c.entries, EDen w e s := by
  cases w with
  | false => simp only [Den]; exact hasStack_iff c s
  | true =>
    simp only [Den, ↓reduceIte, Allows]
    constructor
    · rintro ⟨t, u, rfl, h⟩
      rw [hasStack_iff] at h
      obtain ⟨⟨p, r⟩, he, hs⟩ := h
      refine ⟨_, he, ?_⟩
      cases p with
      | none => simp [EDen] at hs ⊢; exact hs.1
      | some p =>
        simp [EDen, Den] at hs ⊢
        obtain ⟨s', rfl, hs⟩ := hs
        exact ⟨s' ++ u, rfl, s', u, rfl, hs⟩
    · rintro ⟨⟨p, r⟩, he, hs⟩
      cases p with
      | none =>
        refine ⟨[], s, rfl, ?_⟩
        rw [hasStack_iff]
        refine ⟨_, he, ?_⟩
        simp [EDen] at hs ⊢; exact hs
      | some p =>
        simp only [EDen, Den, Allows, if_true] at hs
        obtain ⟨s', rfl, t, u, rfl, hs⟩ := hs
        refine ⟨r :: t, u, rfl, ?_⟩
        rw [hasStack_iff]
        exact ⟨_, he, by simp [EDen, Den]; exact hs⟩

/-! ### Well-formed entry lists -/

/-- A well-formed (parent, return state) pair. -/
def EOk (e : Option PC × Int) : Prop :=
  match e.1 with
  | none => e.2 = EMPTY_RS
  | some p => e.2 < EMPTY_RS ∧ WF p

/-- A well-formed list of pairs. -/
def EWF (l : List (Option PC × Int)) : Prop :=
  l.Pairwise (fun x y => x.2 < y.2) ∧ ∀ e ∈ l, EOk e

theorem wf_entries {c : PC} (h : WF c) : EWF c.entries := by
  cases h with
  | empty => simp [EWF, entries, EOk]
  | single h1 h2 => simp [EWF, entries, EOk, h1, h2]
  | array h1 h2 h3 h4 h5 =>
    refine ⟨h2, ?_⟩
    rintro ⟨p, r⟩ he
    cases p with
    | none => exact h3 r he
    | some p => exact ⟨h4 p r he, h5 p r he⟩

theorem wf_array {l : List (Option PC × Int)} (hl : 2 ≤ l.length) (h : EWF l) : WF (.array l) :=
  .array hl h.1 (fun r hr => h.2 _ hr) (fun p r hr => (h.2 _ hr).1) (fun p r hr => (h.2 _ hr).2)

theorem wf_array_length {l : List (Option PC × Int)} (h : WF (.array l)) : 2 ≤ l.length := by
  cases h; assumption

theorem eok_le {e : Option PC × Int} (h : EOk e) : e.2 ≤ EMPTY_RS := by
  obtain ⟨p, r⟩ := e
  cases p with
  | none => simp only [EOk] at h; omega
  | some p => simp only [EOk] at h; simp only; omega

theorem wf_isEmpty {c : PC} (h : WF c) : c.isEmpty = true ↔ c = EMPTY := by
  cases h with
  | empty => simp [isEmpty, EMPTY]
  | single h1 h2 => simp [isEmpty, EMPTY]
  | @array l h1 h2 h3 h4 h5 =>
    simp only [isEmpty, EMPTY, reduceCtorEq, iff_false, Bool.not_eq_true]
    have hw := wf_entries (.array h1 h2 h3 h4 h5)
    match l, h1, h2, hw with
    | x :: y :: l, _, h2, hw =>
      have hxy : x.2 < y.2 := (List.pairwise_cons.mp h2).1 y (by simp)
      have hy : EOk y := hw.2 y (by simp [entries])
      have := eok_le hy
      simp only [List.head?_cons, Option.any_some, beq_eq_false_iff_ne]
      omega

theorem wf_nonempty_stack {c : PC} (h : WF c) : ∃ s, HasStack c s := by
  induction h with
  | empty => exact ⟨[], .bottomS⟩
  | single _ _ ih => obtain ⟨s, hs⟩ := ih; exact ⟨_, .pushS hs⟩
  | @array l h1 h2 h3 h4 h5 ih =>
    match l, h1 with
    | (p, r) :: l, _ =>
      cases p with
      | none =>
        have := h3 r (by simp)
        subst this
        exact ⟨[], .bottomA (by simp)⟩
      | some p =>
        obtain ⟨s, hs⟩ := ih p r (by simp)
        exact ⟨r :: s, .pushA (by simp) hs⟩

/-! ### The merge loop -/

/-- `r` is a correct result of merging `a` and `b`. -/
def Good (w : Bool) (a b r : PC) : Prop :=
  WF r ∧ ∀ s, Den w r s ↔ Den w a s ∨ Den w b s

/-- A correct cache for a mode. -/
def CacheOk (w : Bool) (c : Option Cache) : Prop :=
  ∀ cc, c = some cc → ∀ x ∈ cc, Good w x.1.1 x.1.2 x.2

/-- What is to be shown of `merge`. -/
def MergeOk (w d : Bool) (a b : PC) : Prop :=
  ∀ c, CacheOk d c → ∃ r c', merge a b w c = some (r, c') ∧ Good d a b r ∧ CacheOk d c'

theorem exists_cons_or {α} {p : α → Prop} {x : α} {l : List α} :
    (∃ e ∈ x :: l, p e) ↔ p x ∨ ∃ e ∈ l, p e := by simp

theorem or_same (A B C : Prop) : (A ∨ B ∨ C) ↔ (A ∨ B) ∨ A ∨ C := by tauto
theorem or_left_first (A B C D : Prop) : (A ∨ B ∨ C ∨ D) ↔ (A ∨ B) ∨ C ∨ D := by tauto
theorem or_right_first (A B C D : Prop) : (C ∨ (A ∨ B) ∨ D) ↔ (A ∨ B) ∨ C ∨ D := by tauto
theorem or_both (A B C D : Prop) : ((A ∨ B) ∨ C ∨ D) ↔ (A ∨ C) ∨ B ∨ D := by tauto

theorem mergeLoop_ok (w d : Bool) (la lb : List (Option PC × Int)) (ha : EWF la) (hb : EWF lb)
    (ih : ∀ p q r, (some p, r) ∈ la → (some q, r) ∈ lb → MergeOk w d p q) (c : Option Cache)
    (hc : CacheOk d c) :
    ∃ m c', mergeLoop la lb w c = some (m, c') ∧ CacheOk d c' ∧ EWF m ∧
      (∀ e ∈ m, ∃ e' ∈ la ++ lb, e'.2 = e.2) ∧ la.length ≤ m.length ∧ lb.length ≤ m.length ∧
      ∀ s, (∃ e ∈ m, EDen d e s) ↔ (∃ e ∈ la, EDen d e s) ∨ (∃ e ∈ lb, EDen d e s) := by
  match la, lb with
  | [], lb =>
    refine ⟨lb, c, by rw [mergeLoop], hc, hb, ?_, by simp, by simp, by simp⟩
    intro e he; exact ⟨e, by simpa using he, rfl⟩
  | a :: la, [] =>
    refine ⟨a :: la, c, by rw [mergeLoop]; simp, hc, ha, ?_, by simp, by simp, by simp⟩
    intro e he; exact ⟨e, by simpa using he, rfl⟩
  | (pa, ra) :: la, (pb, rb) :: lb =>
    have ha1 := List.pairwise_cons.mp ha.1
    have hb1 := List.pairwise_cons.mp hb.1
    have ha' : EWF la := ⟨ha1.2, fun e he => ha.2 e (by simp [he])⟩
    have hb' : EWF lb := ⟨hb1.2, fun e he => hb.2 e (by simp [he])⟩
    have hae : EOk (pa, ra) := ha.2 _ (by simp)
    have hbe : EOk (pb, rb) := hb.2 _ (by simp)
    -- the shape of the result in all cases
    have build : ∀ (e : Option PC × Int) (la' lb' : List (Option PC × Int)) (m : List (Option PC × Int)),
        EOk e → EWF m → (∀ x ∈ m, ∃ e' ∈ la' ++ lb', e'.2 = x.2) →
        (∀ x ∈ la', e.2 < x.2) → (∀ x ∈ lb', e.2 < x.2) → EWF (e :: m) := by
      intro e la' lb' m he hm hsub h1 h2
      refine ⟨List.pairwise_cons.mpr ⟨?_, hm.1⟩, ?_⟩
      · intro x hx
        obtain ⟨e', he', heq⟩ := hsub x hx
        rw [← heq]
        rcases List.mem_append.mp he' with h | h
        · exact h1 _ h
        · exact h2 _ h
      · intro x hx
        rcases List.mem_cons.mp hx with rfl | h
        · exact he
        · exact hm.2 x h
    by_cases hr : ra = rb
    · subst hr
      have ih' : ∀ p q r, (some p, r) ∈ la → (some q, r) ∈ lb → MergeOk w d p q :=
        fun p q r h1 h2 => ih p q r (by simp [h1]) (by simp [h2])
      by_cases hsame : (ra = EMPTY_RS ∧ pa = none ∧ pb = none) ∨ (pa.isSome ∧ pa = pb)
      · obtain ⟨m, c', hm, hc', hw, hsub, hl1, hl2, hd⟩ := mergeLoop_ok w d la lb ha' hb' ih' c hc
        have hpp : pa = pb := by
          rcases hsame with ⟨_, h1, h2⟩ | ⟨_, h⟩
          · rw [h1, h2]
          · exact h
        refine ⟨(pa, ra) :: m, c', ?_, hc', build _ la lb m hae hw hsub ha1.1 hb1.1, ?_,
          by simp; omega, by simp; omega, ?_⟩
        · rw [mergeLoop.eq_def]; dsimp only; rw [if_pos rfl, if_pos hsame, hm]
        · intro e he
          rcases List.mem_cons.mp he with rfl | h
          · exact ⟨(pa, ra), by simp, rfl⟩
          · obtain ⟨e', h1, h2⟩ := hsub e h
            refine ⟨e', ?_, h2⟩
            simp only [List.mem_append, List.mem_cons] at h1 ⊢; tauto
        · intro s
          rw [exists_cons_or, exists_cons_or, exists_cons_or, hd s, hpp]
          exact or_same _ _ _
      · -- both have parents, which are merged
        cases pa with
        | none =>
          cases pb with
          | none => exact absurd (.inl ⟨hae, rfl, rfl⟩) hsame
          | some q =>
            have h1 : ra = EMPTY_RS := hae
            have h2 : ra < EMPTY_RS := hbe.1
            omega
        | some p =>
          cases pb with
          | none =>
            have h1 : ra = EMPTY_RS := hbe
            have h2 : ra < EMPTY_RS := hae.1
            omega
          | some q =>
            obtain ⟨mp, c1, hmp, hg, hc1⟩ := ih p q ra (by simp) (by simp) c hc
            obtain ⟨m, c', hm, hc', hw, hsub, hl1, hl2, hd⟩ := mergeLoop_ok w d la lb ha' hb' ih' c1 hc1
            refine ⟨(some mp, ra) :: m, c', ?_, hc',
              build _ la lb m ⟨hae.1, hg.1⟩ hw hsub ha1.1 hb1.1, ?_, by simp; omega, by simp; omega, ?_⟩
            · rw [mergeLoop.eq_def]; dsimp only; rw [if_pos rfl, if_neg hsame]
              simp only [hmp, hm]
            · intro e he
              rcases List.mem_cons.mp he with rfl | h
              · exact ⟨(some p, ra), by simp, rfl⟩
              · obtain ⟨e', h1, h2⟩ := hsub e h
                refine ⟨e', ?_, h2⟩
                simp only [List.mem_append, List.mem_cons] at h1 ⊢; tauto
            · intro s
              rw [exists_cons_or, exists_cons_or, exists_cons_or, hd s]
              have : EDen d (some mp, ra) s ↔ EDen d (some p, ra) s ∨ EDen d (some q, ra) s := by
                simp only [EDen]
                constructor
                · rintro ⟨s', h1, h2⟩
                  rcases (hg.2 s').mp h2 with h | h
                  · exact .inl ⟨s', h1, h⟩
                  · exact .inr ⟨s', h1, h⟩
                · rintro (⟨s', h1, h2⟩ | ⟨s', h1, h2⟩)
                  · exact ⟨s', h1, (hg.2 s').mpr (.inl h2)⟩
                  · exact ⟨s', h1, (hg.2 s').mpr (.inr h2)⟩
              rw [this]; exact or_both _ _ _ _
    · by_cases hlt : ra < rb
      · obtain ⟨m, c', hm, hc', hw, hsub, hl1, hl2, hd⟩ :=
          mergeLoop_ok w d la ((pb, rb) :: lb) ha' hb
            (fun p q r h1 h2 => ih p q r (by simp [h1]) h2) c hc
        refine ⟨(pa, ra) :: m, c', ?_, hc', build _ la ((pb, rb) :: lb) m hae hw hsub ha1.1 ?_, ?_,
          by simp; omega, by simp at hl2 ⊢; omega, ?_⟩
        · rw [mergeLoop.eq_def]; dsimp only; rw [if_neg hr, if_pos hlt, hm]
        · intro x hx
          rcases List.mem_cons.mp hx with rfl | h
          · exact hlt
          · have := hb1.1 x h; simp only at this ⊢; omega
        · intro e he
          rcases List.mem_cons.mp he with rfl | h
          · exact ⟨(pa, ra), by simp, rfl⟩
          · obtain ⟨e', h1, h2⟩ := hsub e h
            refine ⟨e', ?_, h2⟩
            simp only [List.mem_append, List.mem_cons] at h1 ⊢; tauto
        · intro s
          rw [exists_cons_or, hd s]
          rw [exists_cons_or, exists_cons_or]; exact or_left_first _ _ _ _
      · obtain ⟨m, c', hm, hc', hw, hsub, hl1, hl2, hd⟩ :=
          mergeLoop_ok w d ((pa, ra) :: la) lb ha hb'
            (fun p q r h1 h2 => ih p q r h1 (by simp [h2])) c hc
        refine ⟨(pb, rb) :: m, c', ?_, hc', build _ ((pa, ra) :: la) lb m hbe hw hsub ?_ hb1.1, ?_,
          by simp at hl1 ⊢; omega, by simp; omega, ?_⟩
        · rw [mergeLoop.eq_def]; dsimp only; rw [if_neg hr, if_neg hlt, hm]
        · intro x hx
          rcases List.mem_cons.mp hx with rfl | h
          · simp only; omega
          · have := ha1.1 x h; simp only at this ⊢; omega
        · intro e he
          rcases List.mem_cons.mp he with rfl | h
          · exact ⟨(pb, rb), by simp, rfl⟩
          · obtain ⟨e', h1, h2⟩ := hsub e h
            refine ⟨e', ?_, h2⟩
            simp only [List.mem_append, List.mem_cons] at h1 ⊢; tauto
        · intro s
          rw [exists_cons_or, hd s]
          rw [exists_cons_or, exists_cons_or]; exact or_right_first _ _ _ _
termination_by la.length + lb.length

/-! ### `merge` -/

theorem good_symm {w : Bool} {a b r : PC} (h : Good w a b r) : Good w b a r :=
  ⟨h.1, fun s => by rw [h.2 s]; tauto⟩

theorem lookup_mem {c : Cache} {k : PC × PC} {r : PC} (h : c.lookup k = some r) : (k, r) ∈ c := by
  induction c with
  | nil => simp at h
  | cons x c ih =>
    obtain ⟨k', r'⟩ := x
    rw [List.lookup_cons] at h
    by_cases hk : k = k'
    · subst hk; simp at h; subst h; simp
    · have : (k == k') = false := by simp [hk]
      rw [this] at h
      exact List.mem_cons_of_mem _ (ih h)

theorem lookup_good {w : Bool} {c : Option Cache} (hc : CacheOk w c) {a b r : PC}
    (h : lookup c a b = some r) : Good w a b r := by
  cases c with
  | none => simp [lookup] at h
  | some cc =>
    simp only [lookup, Option.or_eq_some_iff] at h
    rcases h with h | ⟨_, h⟩
    · exact hc cc rfl _ (lookup_mem h)
    · exact good_symm (hc cc rfl _ (lookup_mem h))

theorem remember_ok {w : Bool} {c : Option Cache} (hc : CacheOk w c) {a b r : PC}
    (h : Good w a b r) : CacheOk w (remember c a b r) := by
  intro cc hcc x hx
  cases c with
  | none => simp [remember] at hcc
  | some c0 =>
    simp only [remember, Option.map_some, Option.some.injEq] at hcc
    subst hcc
    rcases List.mem_cons.mp hx with rfl | h'
    · exact h
    · exact hc c0 rfl x h'

theorem den_true_empty (s : List Int) : Den true EMPTY s := by
  simp only [Den, ↓reduceIte, Allows]
  exact ⟨[], s, rfl, .bottomS⟩

theorem den_entries (w : Bool) (a b r : PC)
    (h : ∀ s, (∃ e ∈ r.entries, EDen w e s) ↔
      (∃ e ∈ a.entries, EDen w e s) ∨ (∃ e ∈ b.entries, EDen w e s)) :
    ∀ s, Den w r s ↔ Den w a s ∨ Den w b s := by
  intro s; rw [den_iff, den_iff, den_iff, h s]

theorem isEmpty_single {p : Option PC} {r : Int} (h : (single p r).isEmpty = true) :
    single p r = EMPTY := by
  simp [isEmpty] at h
  obtain ⟨rfl, rfl⟩ := h
  rfl

theorem size_lt_of_mem {c p : PC} {r : Int} (h : (some p, r) ∈ c.entries) : p.size < c.size := by
  cases c with
  | single q r' =>
    simp [entries] at h
    obtain ⟨rfl, _⟩ := h
    simp only [size, sizeO]; omega
  | array l =>
    simp only [entries] at h
    have : ∀ l : List (Option PC × Int), (some p, r) ∈ l → p.size < 1 + sizeL l := by
      intro l
      induction l with
      | nil => simp
      | cons x l ih =>
        intro h
        rcases List.mem_cons.mp h with rfl | h
        · simp only [sizeL, sizeE, sizeO]; omega
        · have := ih h; simp only [sizeL]; omega
    exact this l h

/-- `merge` in mode `w` is correct when read in mode `d`, for every cache correct in mode `d`. -/
theorem merge_ok (w d : Bool) (hwd : w = true → d = true) (a b : PC) (ha : WF a) (hb : WF b) : MergeOk w d a b := by
  intro c hc
  by_cases hab : a = b
  · refine ⟨a, c, by rw [merge.eq_def, if_pos hab], ⟨ha, fun s => by rw [hab]; tauto⟩, hc⟩
  · cases hlk : lookup c a b with
    | some old =>
      exact ⟨old, c, by rw [merge.eq_def, if_neg hab, hlk], lookup_good hc hlk, hc⟩
    | none =>
      -- merging the parents
      have ih : ∀ p q r, (some p, r) ∈ a.entries → (some q, r) ∈ b.entries → MergeOk w d p q := by
        intro p q r h1 h2
        have := size_lt_of_mem h1
        have := size_lt_of_mem h2
        exact merge_ok w d hwd p q ((wf_entries ha).2 _ h1).2 ((wf_entries hb).2 _ h2).2
      -- the case of two arrays, or an array and a single
      have arrays : (2 ≤ a.entries.length ∨ 2 ≤ b.entries.length) →
          (merge a b w c = if w && (a.isEmpty || b.isEmpty) then some (EMPTY, c)
            else match mergeLoop a.entries b.entries w c with
              | none => none
              | some (m, c) => some (.array m, remember c a b (.array m))) →
          ∃ r c', merge a b w c = some (r, c') ∧ Good d a b r ∧ CacheOk d c' := by
        intro hlen he
        by_cases hw : (w && (a.isEmpty || b.isEmpty)) = true
        · rw [if_pos hw] at he
          rw [Bool.and_eq_true, Bool.or_eq_true] at hw
          obtain ⟨rfl, hw⟩ := hw
          obtain rfl := hwd rfl
          refine ⟨EMPTY, c, he, ⟨.empty, fun s => ?_⟩, hc⟩
          have := den_true_empty s
          rcases hw with h | h
          · rw [wf_isEmpty ha] at h; subst h; tauto
          · rw [wf_isEmpty hb] at h; subst h; tauto
        · rw [if_neg hw] at he
          obtain ⟨m, c', hm, hc', hwf, hsub, hl1, hl2, hd⟩ :=
            mergeLoop_ok w d a.entries b.entries (wf_entries ha) (wf_entries hb) ih c hc
          rw [hm] at he
          have hg : Good d a b (.array m) :=
            ⟨wf_array (by omega) hwf, den_entries d a b (.array m) hd⟩
          exact ⟨_, _, he, hg, remember_ok hc' hg⟩
      cases a with
      | array la =>
        exact arrays (.inl (wf_array_length ha)) (by rw [merge.eq_def, if_neg hab, hlk]; rfl)
      | single pa ra =>
        cases b with
        | array lb =>
          exact arrays (.inr (wf_array_length hb)) (by rw [merge.eq_def, if_neg hab, hlk]; rfl)
        | single pb rb =>
          have hea : EOk (pa, ra) := (wf_entries ha).2 _ (by simp [entries])
          have heb : EOk (pb, rb) := (wf_entries hb).2 _ (by simp [entries])
          cases hroot : mergeRoot pa ra pb rb w with
          | some r =>
            have hg : Good d (.single pa ra) (.single pb rb) r := by
              have hne : ¬ ((single pa ra).isEmpty = true ∧ (single pb rb).isEmpty = true) := by
                rintro ⟨h1, h2⟩
                exact hab ((isEmpty_single h1).trans (isEmpty_single h2).symm)
              cases w with
              | true =>
                obtain rfl := hwd rfl
                simp only [mergeRoot, ↓reduceIte] at hroot
                split at hroot
                · rename_i h
                  simp only [Option.some.injEq] at hroot
                  subst hroot
                  refine ⟨.empty, fun s => ?_⟩
                  have := den_true_empty s
                  rw [Bool.or_eq_true] at h
                  rcases h with h | h
                  · rw [isEmpty_single h]; tauto
                  · rw [isEmpty_single h]; tauto
                · simp at hroot
              | false =>
                simp only [mergeRoot, Bool.false_eq_true, ↓reduceIte] at hroot
                split at hroot
                · rename_i h
                  exact absurd (Bool.and_eq_true _ _ ▸ h) hne
                · split at hroot
                  · rename_i h
                    simp only [Option.some.injEq] at hroot
                    subst hroot
                    have hE := isEmpty_single h
                    have hnb : rb < EMPTY_RS := by
                      cases pb with
                      | none =>
                        have h1 : rb = EMPTY_RS := heb
                        exfalso; apply hab; rw [hE, h1]; rfl
                      | some q => exact heb.1
                    refine ⟨wf_array (by simp) ⟨by simp [hnb], ?_⟩, ?_⟩
                    · intro e he
                      simp only [List.mem_cons, List.not_mem_nil, or_false] at he
                      rcases he with rfl | rfl
                      · exact heb
                      · rfl
                    · apply den_entries
                      intro s
                      rw [hE]
                      simp only [entries, EMPTY, exists_cons_or]; tauto
                  · split at hroot
                    · rename_i h
                      simp only [Option.some.injEq] at hroot
                      subst hroot
                      have hE := isEmpty_single h
                      have hna : ra < EMPTY_RS := by
                        cases pa with
                        | none =>
                          have h1 : ra = EMPTY_RS := hea
                          exfalso; apply hab; rw [hE, h1]; rfl
                        | some q => exact hea.1
                      refine ⟨wf_array (by simp) ⟨by simp [hna], ?_⟩, ?_⟩
                      · intro e he
                        simp only [List.mem_cons, List.not_mem_nil, or_false] at he
                        rcases he with rfl | rfl
                        · exact hea
                        · rfl
                      · apply den_entries
                        intro s
                        rw [hE]
                        simp only [entries, EMPTY, exists_cons_or, List.not_mem_nil, false_and,
                          exists_false, or_false]
                    · simp at hroot
            refine ⟨r, _, ?_, hg, remember_ok hc hg⟩
            rw [merge.eq_def, if_neg hab, hlk]
            simp only [hroot]
          | none =>
            by_cases hr : ra = rb
            · subst hr
              cases pa with
              | none =>
                cases pb with
                | none => exact absurd rfl hab
                | some q =>
                  have h1 : ra = EMPTY_RS := hea
                  have h2 : ra < EMPTY_RS := heb.1
                  omega
              | some p =>
                cases pb with
                | none =>
                  have h1 : ra = EMPTY_RS := heb
                  have h2 : ra < EMPTY_RS := hea.1
                  omega
                | some q =>
                  obtain ⟨m, c', hm, hgm, hc'⟩ := ih p q ra (by simp [entries]) (by simp [entries]) c hc
                  have hg : Good d (.single (some p) ra) (.single (some q) ra) (.single (some m) ra) := by
                    refine ⟨.single hea.1 hgm.1, ?_⟩
                    apply den_entries
                    intro s
                    simp only [entries, List.mem_singleton, exists_eq_left, EDen]
                    constructor
                    · rintro ⟨s', h1, h2⟩
                      rcases (hgm.2 s').mp h2 with h | h
                      · exact .inl ⟨s', h1, h⟩
                      · exact .inr ⟨s', h1, h⟩
                    · rintro (⟨s', h1, h2⟩ | ⟨s', h1, h2⟩)
                      · exact ⟨s', h1, (hgm.2 s').mpr (.inl h2)⟩
                      · exact ⟨s', h1, (hgm.2 s').mpr (.inr h2)⟩
                  refine ⟨_, _, ?_, hg, remember_ok hc' hg⟩
                  rw [merge.eq_def, if_neg hab, hlk]
                  simp only [hroot, ↓reduceIte, hm]
            · have hg : Good d (.single pa ra) (.single pb rb)
                  (if ra ≤ rb then PC.array [(pa, ra), (pb, rb)] else .array [(pb, rb), (pa, ra)]) := by
                have hall : ∀ e, e = (pa, ra) ∨ e = (pb, rb) → EOk e := by
                  rintro e (rfl | rfl) <;> assumption
                split
                · refine ⟨wf_array (by simp) ⟨by simp; omega, fun e he => hall e (by simpa using he)⟩, ?_⟩
                  apply den_entries
                  intro s
                  simp only [entries, exists_cons_or]; simp
                · refine ⟨wf_array (by simp) ⟨by simp; omega, fun e he => hall e (by
                    simp at he; tauto)⟩, ?_⟩
                  apply den_entries
                  intro s
                  simp only [entries, exists_cons_or]
                  simp only [List.not_mem_nil, false_and, exists_false, or_false]; tauto
              refine ⟨_, _, ?_, hg, remember_ok hc hg⟩
              rw [merge.eq_def, if_neg hab, hlk]
              simp only [hroot, hr, ↓reduceIte]
termination_by a.size + b.size

/-- Without a cache there is no cache afterwards. -/
theorem mergeLoop_none_cache (w : Bool) (la lb : List (Option PC × Int))
    (ih : ∀ p q r m c', (some p, r) ∈ la → merge p q w none = some (m, c') → c' = none)
    (m : List (Option PC × Int)) (c' : Option Cache) (h : mergeLoop la lb w none = some (m, c')) :
    c' = none := by
  match la, lb with
  | [], lb => rw [mergeLoop] at h; simp at h; exact h.2.symm
  | a :: la, [] => rw [mergeLoop] at h <;> simp at h ⊢; exact h.2.symm
  | (pa, ra) :: la, (pb, rb) :: lb =>
    have step : ∀ la' lb' (e : Option PC × Int),
        (∀ m c', mergeLoop la' lb' w none = some (m, c') → c' = none) →
        (match mergeLoop la' lb' w none with
          | none => none
          | some (m, c) => some (e :: m, c)) = some (m, c') → c' = none := by
      intro la' lb' e h1 h2
      split at h2
      · simp at h2
      · rename_i m0 c0 h0
        simp at h2
        rw [← h2.2]; exact h1 _ _ h0
    have ih' : ∀ p q r m c', (some p, r) ∈ la → merge p q w none = some (m, c') → c' = none :=
      fun p q r m c' h1 h2 => ih p q r m c' (by simp [h1]) h2
    rw [mergeLoop.eq_def] at h
    dsimp only at h
    split at h
    · split at h
      · exact step _ _ _ (mergeLoop_none_cache w la lb ih') h
      · split at h
        · rename_i p q _
          split at h
          · simp at h
          · rename_i mp c1 h1
            have := ih p q ra mp c1 (by simp) h1
            subst this
            exact step _ _ _ (mergeLoop_none_cache w la lb ih') h
        · simp at h
    · split at h
      · exact step _ _ _ (mergeLoop_none_cache w la ((pb, rb) :: lb) ih') h
      · exact step _ _ _ (mergeLoop_none_cache w ((pa, ra) :: la) lb ih) h
termination_by la.length + lb.length

theorem merge_none_cache' (w : Bool) (a b r : PC) (c' : Option Cache)
    (h : merge a b w none = some (r, c')) : c' = none := by
  have ih : ∀ p q r m c', (some p, r) ∈ a.entries → merge p q w none = some (m, c') → c' = none := by
    intro p q r m c' h1 h2
    have := size_lt_of_mem h1
    exact merge_none_cache' w p q m c' h2
  have arrays : (if w && (a.isEmpty || b.isEmpty) then some (EMPTY, none)
            else match mergeLoop a.entries b.entries w none with
              | none => none
              | some (m, c) => some (.array m, remember c a b (.array m))) = some (r, c') → c' = none := by
    intro he
    split at he
    · simp at he; exact he.2.symm
    · split at he
      · simp at he
      · rename_i m c hm
        have := mergeLoop_none_cache w _ _ ih m c hm
        subst this
        simp [remember] at he
        exact he.2.symm
  rw [merge.eq_def] at h
  by_cases hab : a = b
  · rw [if_pos hab] at h; simp at h; exact h.2.symm
  · rw [if_neg hab] at h
    simp only [lookup] at h
    cases a with
    | array la => exact arrays h
    | single pa ra =>
      cases b with
      | array lb => exact arrays h
      | single pb rb =>
        simp only at h
        split at h
        · simp [remember] at h; exact h.2.symm
        · split at h
          · split at h
            · rename_i p q _ 
              split at h
              · simp at h
              · rename_i m c hm
                have := ih p q ra m c (by simp [entries]) hm
                subst this
                simp [remember] at h
                exact h.2.symm
            · simp at h
          · simp [remember] at h; exact h.2.symm
termination_by a.size

theorem merge_none_cache (w : Bool) (a b r : PC) (c : Cache) :
    merge a b w none ≠ some (r, some c) := by
  intro h
  have := merge_none_cache' w a b r _ h
  simp at this

/-! ### Canonicity -/

theorem sorted_ext (la lb : List (Option PC × Int)) (ha : la.Pairwise (fun x y => x.2 < y.2))
    (hb : lb.Pairwise (fun x y => x.2 < y.2)) (h : ∀ e, e ∈ la ↔ e ∈ lb) : la = lb := by
  induction la generalizing lb with
  | nil =>
    cases lb with
    | nil => rfl
    | cons y lb => have := (h y).mpr (by simp); simp at this
  | cons x la ih =>
    cases lb with
    | nil => have := (h x).mp (by simp); simp at this
    | cons y lb =>
      have ha1 := List.pairwise_cons.mp ha
      have hb1 := List.pairwise_cons.mp hb
      have hxy : x = y := by
        have h1 := (h x).mp (by simp)
        have h2 := (h y).mpr (by simp)
        rcases List.mem_cons.mp h1 with h1 | h1
        · exact h1
        · rcases List.mem_cons.mp h2 with h2 | h2
          · exact h2.symm
          · have := ha1.1 y h2
            have := hb1.1 x h1
            omega
      subst hxy
      congr 1
      apply ih lb ha1.2 hb1.2
      intro e
      have he := h e
      simp only [List.mem_cons] at he
      constructor
      · intro h'
        rcases he.mp (.inr h') with rfl | h''
        · have := ha1.1 _ h'; omega
        · exact h''
      · intro h'
        rcases he.mpr (.inr h') with rfl | h''
        · have := hb1.1 _ h'; omega
        · exact h''

theorem unique_rs {l : List (Option PC × Int)} (hl : l.Pairwise (fun x y => x.2 < y.2))
    {x y : Option PC × Int} (hx : x ∈ l) (hy : y ∈ l) (h : x.2 = y.2) : x = y := by
  induction l with
  | nil => simp at hx
  | cons z l ih =>
    have h1 := List.pairwise_cons.mp hl
    rcases List.mem_cons.mp hx with rfl | hx'
    · rcases List.mem_cons.mp hy with rfl | hy'
      · rfl
      · have := h1.1 _ hy'; omega
    · rcases List.mem_cons.mp hy with rfl | hy'
      · have := h1.1 _ hx'; omega
      · exact ih h1.2 hx' hy'

theorem wf_canonical (a b : PC) (ha : WF a) (hb : WF b)
    (h : ∀ s, HasStack a s ↔ HasStack b s) : a = b := by
  have sub : ∀ a' b' : PC, WF a' → WF b' → (∀ s, HasStack a' s ↔ HasStack b' s) →
      (∀ p r q, (some p, r) ∈ a'.entries → (some q, r) ∈ b'.entries →
        (∀ s, HasStack p s ↔ HasStack q s) → p = q) →
      ∀ e ∈ a'.entries, e ∈ b'.entries := by
    intro a' b' ha' hb' h' ih e he
    obtain ⟨p, r⟩ := e
    have hwa := wf_entries ha'
    have hwb := wf_entries hb'
    cases p with
    | none =>
      have hr : r = EMPTY_RS := hwa.2 _ he
      have : HasStack b' [] := by
        rw [← h', hasStack_iff]
        exact ⟨_, he, by simp [EDen, hr]⟩
      rw [hasStack_iff] at this
      obtain ⟨⟨q, r'⟩, hq, hd⟩ := this
      cases q with
      | none =>
        simp only [EDen] at hd
        rw [hr, ← hd.1]; exact hq
      | some q => simp [EDen] at hd
    | some p =>
      have hpw : r < EMPTY_RS ∧ WF p := hwa.2 _ he
      have key : ∀ s, HasStack p s → ∃ q, (some q, r) ∈ b'.entries ∧ HasStack q s := by
        intro s hs
        have : HasStack b' (r :: s) := by
          rw [← h', hasStack_iff]
          exact ⟨_, he, by simp [EDen, Den, hs]⟩
        rw [hasStack_iff] at this
        obtain ⟨⟨q, r'⟩, hq, hd⟩ := this
        cases q with
        | none => simp [EDen] at hd
        | some q =>
          simp [EDen, Den] at hd
          exact ⟨q, by rw [hd.1]; exact hq, hd.2⟩
      obtain ⟨s0, hs0⟩ := wf_nonempty_stack hpw.2
      obtain ⟨q, hq, _⟩ := key s0 hs0
      have : p = q := by
        refine ih p r q he hq (fun s => ⟨fun hs => ?_, fun hs => ?_⟩)
        · obtain ⟨q', hq', hs'⟩ := key s hs
          have := unique_rs hwb.1 hq hq' rfl
          simp at this; rw [this]; exact hs'
        · have : HasStack a' (r :: s) := by
            rw [h', hasStack_iff]
            exact ⟨_, hq, by simp [EDen, Den, hs]⟩
          rw [hasStack_iff] at this
          obtain ⟨⟨p', r'⟩, hp', hd⟩ := this
          cases p' with
          | none => simp [EDen] at hd
          | some p' =>
            simp [EDen, Den] at hd
            obtain ⟨rfl, hd⟩ := hd
            have := unique_rs hwa.1 he hp' rfl
            simp at this; rw [this]; exact hd
      subst this; exact hq
  have hent : a.entries = b.entries := by
    apply sorted_ext _ _ (wf_entries ha).1 (wf_entries hb).1
    intro e
    constructor
    · apply sub a b ha hb h
      intro p r q hp hq hpq
      have := size_lt_of_mem hp
      exact wf_canonical p q ((wf_entries ha).2 _ hp).2 ((wf_entries hb).2 _ hq).2 hpq
    · apply sub b a hb ha (fun s => (h s).symm)
      intro p r q hp hq hpq
      have := size_lt_of_mem hq
      exact (wf_canonical q p ((wf_entries ha).2 _ hq).2 ((wf_entries hb).2 _ hp).2
        (fun s => (hpq s).symm)).symm
  cases a with
  | single p r =>
    cases b with
    | single q r' => simp [entries] at hent; rw [hent.1, hent.2]
    | array l =>
      have := wf_array_length hb
      simp only [entries] at hent
      rw [← hent] at this; simp at this
  | array l =>
    cases b with
    | single q r' =>
      have := wf_array_length ha
      simp only [entries] at hent
      rw [hent] at this; simp at this
    | array l' => simp only [entries] at hent; rw [hent]
termination_by a.size

end Antlr

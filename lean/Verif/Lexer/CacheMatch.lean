import Verif.Lexer.Cache
import Verif.Lexer.Position

/-!
# Matching a token with any warmed cache

`match_spec`: `matchToken` on DFAs filled by earlier matches gives the answer of the matcher without a
cache, with an executor equal to its one in the view `q`.
-/

namespace Antlr.LexCache
open Antlr Lexer ConfigSet LexSpec

set_option linter.unusedSectionVars false

section
variable {q : Option (List LexerAction) → Option (List LexerAction)} {D : Type} [InputData D]

/-- The DFA of mode `m` is as earlier matches may have left it. -/
def Warm (q : Option (List LexerAction) → Option (List LexerAction)) (atn : ATN) (hash : List Config → Nat)
    (fc : Nat) (m : Nat) (d : DFA) : Prop :=
  match (atn.modeToStartState[m]?).bind fun ss => atn.states[ss]? with
  | none => d.s0 = none
  | some st => DInv q atn hash fc st.transitions d

def AllWarm (q : Option (List LexerAction) → Option (List LexerAction)) (atn : ATN)
    (hash : List Config → Nat) (fc : Nat) (dfas : List DFA) : Prop :=
  ∀ m d, dfas[m]? = some d → Warm q atn hash fc m d

/-- There is room for `n` more states in every DFA. -/
def Room (n : Nat) (dfas : List DFA) : Prop := ∀ d ∈ dfas, d.states.length + n ≤ ERROR_DFA_STATE_REF

/-- The match without a cache; inner `none` = no such mode. -/
def pmatch (q : Option (List LexerAction) → Option (List LexerAction)) (env : Env D) (fc fe : Nat)
    (L : Lex D) : Option (Option (PStop D)) :=
  match env.atn.modeToStartState[L.mode]? with
  | none => some none
  | some ss =>
    (env.atn.states[ss]?).bind fun st =>
      (startList env.atn (fun r p => predValue (fun r p c => env.sempred r p { L with cur := c }) r p
        false L.cur) fc st.transitions 0).bind fun r =>
          (accOf q env.atn (abs q r.1)).bind fun a =>
            (L.cur.input.la 1).bind fun symbol =>
              (prun q env.atn (fun r p c => env.sempred r p { L with cur := c }) fc fe L.cur (abs q r.1)
                symbol (note a L.cur none)).map some

/-- The state of the lexer after actions. -/
def runExec (action : Int → Int → Lex D → Lex D) (start : Int) (e : Option (List LexerAction)) (L : Lex D) :
    Lex D :=
  match e with
  | some as => executeActions action as L start
  | none => L

/-- The answer for a stopped loop, with the actions `e`. -/
def answer (action : Int → Int → Lex D → Lex D) (start : Int) (x : PStop D) (e : Option (List LexerAction))
    (L : Lex D) : MatchRes × Lex D :=
  match x.prev with
  | some b => (.ok b.ttype, runExec action start e { L with cur := ⟨x.cur.input.seek b.index, b.line, b.col⟩ })
  | none =>
    if x.symbol = EOF ∧ x.cur.input.index = start then (.ok TOKEN_EOF, { L with cur := x.cur })
    else (.noAlt start, { L with cur := x.cur })

/-- The executor of the last accepting state. -/
def PStop.exec (x : PStop D) : Option (List LexerAction) := x.prev.bind (·.exec)

theorem failOrAccept_spec {action : Int → Int → Lex D → Lex D} {start : Int} {y : Stop D} {x : PStop D} {L : Lex D}
    (h1 : y.cur = x.cur) (h2 : y.symbol = x.symbol) (h3 : PrevRel q y.dfa y.prev x.prev) :
    ∃ e, (x.prev.isSome → q e = x.exec) ∧ failOrAccept action start y L = some (answer action start x e L) := by
  obtain ⟨yc, yd, yp, ys⟩ := y
  obtain ⟨xc, xp, xs⟩ := x
  simp only at h1 h2 h3
  subst h1; subst h2
  cases yp with
  | none =>
    cases xp with
    | some b => exact absurd h3 (by simp [PrevRel])
    | none =>
      refine ⟨none, by simp, ?_⟩
      simp only [failOrAccept, answer]
      split <;> rfl
  | some a =>
    cases xp with
    | none => exact absurd h3 (by simp [PrevRel])
    | some b =>
      obtain ⟨k1, k2, k3, s, k4, k5, k6⟩ := h3
      refine ⟨s.executor, fun _ => k6, ?_⟩
      simp only [failOrAccept, answer, k4, Option.map_some, k1, k2, k3, k5]
      rfl

/-- Running from a state of the DFA. -/
theorem execAtn_spec {env : Env D} {fc fe : Nat} {trs : List Trans} (hq : Blur q)
    (hh : ∀ l l', env.hash l = env.hash l' → abs q l = abs q l') {L : Lex D} {d : DFA} {i : Nat}
    {s : DFAState} (h : DInv q env.atn env.hash fc trs d) (hi : 1 ≤ i) (hs : d.states[i]? = some s)
    (hsa : Sane L.cur.input.data) (hr : d.states.length + fe ≤ ERROR_DFA_STATE_REF) :
    match (accOf q env.atn (abs q s.configs.configs)).bind fun a =>
        (L.cur.input.la 1).bind fun symbol =>
          prun q env.atn (fun r p c => env.sempred r p { L with cur := c }) fc fe L.cur
            (abs q s.configs.configs) symbol (note a L.cur none) with
    | none => execAtn env fc fe L.cur.input.index L d i = none
    | some x => ∃ e d', (x.prev.isSome → q e = x.exec) ∧
        execAtn env fc fe L.cur.input.index L d i =
          some ((answer env.action L.cur.input.index x e L).1, (answer env.action L.cur.input.index x e L).2, d') ∧
        DInv q env.atn env.hash fc trs d' ∧ d'.states.length ≤ d.states.length + fe ∧
        x.cur.input.data = L.cur.input.data := by
  obtain ⟨a, a1, a2⟩ := (h.state i s hi hs).acc
  rw [accOf_abs hq, a1]
  simp only [Option.bind_some, execAtn]
  obtain ⟨p, k1, k2⟩ := capture_spec (c := L.cur) hs a2 (p := none) (p' := none) trivial
  rw [k1]
  simp only [Option.bind_some]
  cases hla : L.cur.input.la 1 with
  | none => simp
  | some u =>
    simp only [Option.bind_some]
    have := loop_spec hq hh (sp := fun r p c => env.sempred r p { L with cur := c })
      (start := L.cur.input.index) fe h hi hs hsa (sane_la hsa hla) k2 hr
    cases hp : prun q env.atn (fun r p c => env.sempred r p { L with cur := c }) fc fe L.cur
      (abs q s.configs.configs) u (note a L.cur none) with
    | none => rw [hp] at this; simp only at this; simp [this]
    | some x =>
      rw [hp] at this
      obtain ⟨y, y1, y2, y3, y4, y5, y6, y7⟩ := this
      obtain ⟨e, e1, e2⟩ := failOrAccept_spec (action := env.action) (start := L.cur.input.index) (L := L) y2 y3 y4
      exact ⟨e, y.dfa, e1, by simp [y1, e2], y5, y6, y7⟩

theorem dinv_s0 {atn : ATN} {hash : List Config → Nat} {fc : Nat} {trs : List Trans} {d : DFA}
    (h : DInv q atn hash fc trs d) {i : Nat} {s : DFAState} {ys : List Config} (hi : 1 ≤ i)
    (hs : d.states[i]? = some s) (hy : ∀ pred, startList atn pred fc trs 0 = some (ys, false))
    (ha : abs q s.configs.configs = abs q ys) : DInv q atn hash fc trs { d with s0 := some i } := by
  refine ⟨h.pos, h.small, h.state, ?_, h.map, ?_⟩
  · intro j x t z hj hx ht hz
    exact (h.edge j x t z hj hx ht hz).mono (fun i s h => ⟨s, h, rfl, rfl, rfl, rfl⟩) rfl
  · intro j hj
    simp only [Option.some.injEq] at hj
    subst hj
    exact ⟨hi, s, ys, hs, hy, ha⟩

/-- Matching with a warmed cache. -/
theorem match_spec {env : Env D} {fc fe n : Nat} (hq : Blur q)
    (hh : ∀ l l', env.hash l = env.hash l' → abs q l = abs q l') {L : Lex D} {dfas : List DFA}
    (h : AllWarm q env.atn env.hash fc dfas) (hm : L.mode < dfas.length) (hsa : Sane L.cur.input.data)
    (hr : Room (n + (fe + 1)) dfas) :
    match pmatch q env fc fe L with
    | none => matchToken env fc fe L dfas = none
    | some none => matchToken env fc fe L dfas = some (.illegalMode, L, dfas)
    | some (some x) => ∃ e dfas', (x.prev.isSome → q e = x.exec) ∧
        matchToken env fc fe L dfas =
          some ((answer env.action L.cur.input.index x e L).1, (answer env.action L.cur.input.index x e L).2, dfas') ∧
        AllWarm q env.atn env.hash fc dfas' ∧ dfas'.length = dfas.length ∧ Room n dfas' ∧
        x.cur.input.data = L.cur.input.data := by
  obtain ⟨d, hd⟩ : ∃ d, dfas[L.mode]? = some d := ⟨dfas[L.mode], by simp [hm]⟩
  have hw := h _ _ hd
  have hrd : d.states.length + (n + (fe + 1)) ≤ ERROR_DFA_STATE_REF := hr d (List.mem_of_getElem? hd)
  have wrap : ∀ (o : Option (MatchRes × Lex D × DFA)) (P : Prop) (x : PStop D) (st : ATNState),
      (env.atn.modeToStartState[L.mode]?).bind (fun ss => env.atn.states[ss]?) = some st →
      (∃ e d', (x.prev.isSome → q e = x.exec) ∧
        o = some ((answer env.action L.cur.input.index x e L).1, (answer env.action L.cur.input.index x e L).2, d') ∧
        DInv q env.atn env.hash fc st.transitions d' ∧ d'.states.length ≤ d.states.length + (fe + 1) ∧
        x.cur.input.data = L.cur.input.data) →
      ∃ e dfas', (x.prev.isSome → q e = x.exec) ∧
        (o.map fun (r : MatchRes × Lex D × DFA) => (r.1, r.2.1, dfas.set L.mode r.2.2)) =
          some ((answer env.action L.cur.input.index x e L).1, (answer env.action L.cur.input.index x e L).2, dfas') ∧
        AllWarm q env.atn env.hash fc dfas' ∧ dfas'.length = dfas.length ∧ Room n dfas' ∧
        x.cur.input.data = L.cur.input.data := by
    rintro o P x st hst ⟨e, d', e1, rfl, e3, e4, e5⟩
    refine ⟨e, dfas.set L.mode d', e1, rfl, ?_, by simp, ?_, e5⟩
    · intro m y hy
      by_cases hmm : L.mode = m
      · subst hmm
        rw [List.getElem?_set_self hm] at hy
        injection hy with hy
        subst hy
        simp only [Warm, hst]
        exact e3
      · rw [List.getElem?_set_ne hmm] at hy
        exact h m y hy
    · intro y hy
      rcases List.mem_or_eq_of_mem_set hy with hy | rfl
      · have := hr y hy; omega
      · omega
  simp only [matchToken, hd, pmatch]
  simp only [Warm] at hw
  cases hss : env.atn.modeToStartState[L.mode]? with
  | none =>
    rw [hss] at hw
    simp only [Option.bind_none] at hw
    simp only [hw, matchAtn, hss, Option.map_some]
    congr 3
    apply List.ext_getElem?
    intro j
    by_cases hj : L.mode = j
    · subst hj; rw [List.getElem?_set_self hm, hd]
    · rw [List.getElem?_set_ne hj]
  | some ss =>
    simp only
    cases hst : env.atn.states[ss]? with
    | none =>
      rw [hss] at hw
      simp only [Option.bind_some, hst] at hw
      simp [hw, matchAtn, hss, hst]
    | some st =>
      have hbind : (env.atn.modeToStartState[L.mode]?).bind (fun ss => env.atn.states[ss]?) = some st := by
        rw [hss]; exact hst
      rw [hbind] at hw
      simp only at hw
      simp only [Option.bind_some]
      cases hs0 : d.s0 with
      | some i =>
        obtain ⟨g1, s, ys, g2, g3, g4⟩ := hw.start i hs0
        simp only [g3, Option.bind_some]
        have := execAtn_spec (fe := fe) hq hh hw g1 g2 hsa (by omega)
        rw [g4] at this
        cases ho : (accOf q env.atn (abs q ys)).bind fun a =>
            (L.cur.input.la 1).bind fun symbol =>
              prun q env.atn (fun r p c => env.sempred r p { L with cur := c }) fc fe L.cur
                (abs q ys) symbol (note a L.cur none) with
        | none =>
          rw [ho] at this
          simp only at this
          have ho' : ((accOf q env.atn (abs q ys)).bind fun a =>
            (L.cur.input.la 1).bind fun symbol =>
              (prun q env.atn (fun r p c => env.sempred r p { L with cur := c }) fc fe L.cur
                (abs q ys) symbol (note a L.cur none)).map some) = none := by
            rw [← Option.map_none (f := some), ← ho, Option.map_bind]
            congr 1
          rw [ho']
          simp [this]
        | some x =>
          rw [ho] at this
          have ho' : ((accOf q env.atn (abs q ys)).bind fun a =>
            (L.cur.input.la 1).bind fun symbol =>
              (prun q env.atn (fun r p c => env.sempred r p { L with cur := c }) fc fe L.cur
                (abs q ys) symbol (note a L.cur none)).map some) = some (some x) := by
            rw [← Option.map_some (f := some), ← ho, Option.map_bind]
            congr 1
          rw [ho']
          obtain ⟨e, d', e1, e2, e3, e4, e5⟩ := this
          exact wrap _ True x st hbind ⟨e, d', e1, e2, e3, by omega, e5⟩
      | none =>
        simp only [matchAtn, hss, hst, Option.bind_some]
        have hset := startSet_eq (atn := env.atn) (pred := fun r p =>
          predValue (fun r p c => env.sempred r p { L with cur := c }) r p false L.cur) (fuel := fc)
          st.transitions 0 newOrdered collect_new
        cases hsl : startList env.atn (fun r p =>
          predValue (fun r p c => env.sempred r p { L with cur := c }) r p false L.cur) fc st.transitions 0 with
        | none => rw [hsl] at hset; simp only at hset; simp [hset]
        | some r =>
          obtain ⟨ys, sem⟩ := r
          rw [hsl] at hset
          obtain ⟨cs, e1, c1, k1, s1⟩ := hset
          have hk : cs.configs = firsts ys := by rw [k1]; rfl
          have hsem : cs.hasSem = sem := by rw [s1]; simp [newOrdered]
          have hgood := (startList_mem _ hsl).1
          simp only [e1, Option.bind_some]
          have h3 := addState_spec hq hh hw (cs := { cs with hasSem := false }) (by simp only [hk]; exact good_firsts hgood) rfl
            (by omega)
          have hacc : accOf q env.atn cs.configs = accOf q env.atn ys := by
            rw [hk, ← accOf_abs hq, abs_firsts, accOf_abs hq]
          simp only [hacc] at h3
          rw [accOf_abs hq]
          cases ha : accOf q env.atn ys with
          | none => rw [ha] at h3; simp only at h3; simp [h3]
          | some a =>
            rw [ha] at h3
            obtain ⟨d', j, s', g1, g2, g3, g4, g5, g6, g7, g8⟩ := h3
            have hab : abs q s'.configs.configs = abs q ys := by rw [g7, hk, abs_firsts]
            simp only [g1, Option.bind_some]
            have hd2 : DInv q env.atn env.hash fc st.transitions
                (if cs.hasSem then d' else { d' with s0 := some j }) ∧
                (if cs.hasSem then d' else { d' with s0 := some j }).states = d'.states := by
              rw [hsem]
              cases sem with
              | true => exact ⟨g2, rfl⟩
              | false => exact ⟨dinv_s0 g2 g5 g6 (fun pred => startList_false hsl) hab, rfl⟩
            have := execAtn_spec (fe := fe) (L := L) hq hh hd2.1 g5 (by rw [hd2.2]; exact g6) hsa (by rw [hd2.2]; omega)
            rw [hab, accOf_abs hq, ha] at this
            simp only [Option.bind_some] at this
            cases hla : L.cur.input.la 1 with
            | none => rw [hla] at this; simp only [Option.bind_none] at this; simp [this]
            | some u =>
              rw [hla] at this
              simp only [Option.bind_some] at this ⊢
              cases hp : prun q env.atn (fun r p c => env.sempred r p { L with cur := c }) fc fe L.cur
                  (abs q ys) u (note a L.cur none) with
              | none => rw [hp] at this; simp only at this; simp [this]
              | some x =>
                rw [hp] at this
                obtain ⟨e, d'', f1, f2, f3, f4, f5⟩ := this
                rw [hd2.2] at f4
                exact wrap _ True x st hbind ⟨e, d'', f1, f2, f3, by omega, f5⟩

end

end Antlr.LexCache

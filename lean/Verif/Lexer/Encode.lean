import Verif.ConfigSet.Model
import Mathlib.Data.Nat.Pairing

/-!
# Configurations can be numbered

An injective function from lists of configurations to numbers: the hypotheses on hash functions in
the theorems about DFA caches can be met.
-/

namespace Antlr.Encode
open Antlr

/-- Two numbers to one. -/
def p (a b : Nat) : Nat := Nat.pair a b

theorem p_inj {a b c d : Nat} (h : p a b = p c d) : a = c ∧ b = d := Nat.pair_eq_pair.mp h

def int (i : Int) : Nat := if 0 ≤ i then 2 * i.toNat else 2 * (-i).toNat + 1

theorem int_inj {i j : Int} (h : int i = int j) : i = j := by
  unfold int at h; split at h <;> split at h <;> omega

def bool (b : Bool) : Nat := if b then 1 else 0

theorem bool_inj {a b : Bool} (h : bool a = bool b) : a = b := by cases a <;> cases b <;> simp_all [bool]

mutual
def pc : PC → Nat
  | .single q r => 2 * p (pcO q) (int r)
  | .array l => 2 * pcL l + 1
def pcO : Option PC → Nat
  | none => 0
  | some q => pc q + 1
def pcL : List (Option PC × Int) → Nat
  | [] => 0
  | x :: l => p (pcE x) (pcL l) + 1
def pcE : Option PC × Int → Nat
  | (q, r) => p (pcO q) (int r)
end

mutual
theorem pc_inj : ∀ a b, pc a = pc b → a = b
  | .single q r, .single q' r', h => by
    simp only [pc] at h
    obtain ⟨h1, h2⟩ := p_inj (by omega : p (pcO q) (int r) = p (pcO q') (int r'))
    rw [pcO_inj _ _ h1, int_inj h2]
  | .array l, .array l', h => by
    simp only [pc] at h
    rw [pcL_inj l l' (by omega)]
  | .single _ _, .array _, h => by simp only [pc] at h; omega
  | .array _, .single _ _, h => by simp only [pc] at h; omega
theorem pcO_inj : ∀ a b, pcO a = pcO b → a = b
  | none, none, _ => rfl
  | some a, some b, h => by simp only [pcO] at h; rw [pc_inj a b (by omega)]
  | none, some _, h => by simp only [pcO] at h; omega
  | some _, none, h => by simp only [pcO] at h; omega
theorem pcL_inj : ∀ a b, pcL a = pcL b → a = b
  | [], [], _ => rfl
  | x :: l, y :: m, h => by
    simp only [pcL] at h
    obtain ⟨h1, h2⟩ := p_inj (by omega : p (pcE x) (pcL l) = p (pcE y) (pcL m))
    rw [pcE_inj _ _ h1, pcL_inj _ _ h2]
  | [], _ :: _, h => by simp only [pcL] at h; omega
  | _ :: _, [], h => by simp only [pcL] at h; omega
theorem pcE_inj : ∀ a b, pcE a = pcE b → a = b
  | (q, r), (q', r'), h => by
    simp only [pcE] at h
    obtain ⟨h1, h2⟩ := p_inj h
    rw [pcO_inj _ _ h1, int_inj h2]
end

mutual
def sc : SC → Nat
  | .predicate r q d => p 0 (p (int r) (p (int q) (bool d)))
  | .precedence q => p 1 (int q)
  | .and l => p 2 (scL l)
  | .or l => p 3 (scL l)
def scL : List SC → Nat
  | [] => 0
  | x :: l => p (sc x) (scL l) + 1
end

mutual
theorem sc_inj : ∀ a b, sc a = sc b → a = b
  | .predicate r q d, .predicate r' q' d', h => by
    simp only [sc] at h
    obtain ⟨_, h⟩ := p_inj h
    obtain ⟨h1, h⟩ := p_inj h
    obtain ⟨h2, h3⟩ := p_inj h
    rw [int_inj h1, int_inj h2, bool_inj h3]
  | .precedence q, .precedence q', h => by
    simp only [sc] at h
    rw [int_inj (p_inj h).2]
  | .and l, .and l', h => by
    simp only [sc] at h
    rw [scL_inj l l' (p_inj h).2]
  | .or l, .or l', h => by
    simp only [sc] at h
    rw [scL_inj l l' (p_inj h).2]
  | .predicate _ _ _, .precedence _, h => by simp only [sc] at h; have := (p_inj h).1; omega
  | .predicate _ _ _, .and _, h => by simp only [sc] at h; have := (p_inj h).1; omega
  | .predicate _ _ _, .or _, h => by simp only [sc] at h; have := (p_inj h).1; omega
  | .precedence _, .predicate _ _ _, h => by simp only [sc] at h; have := (p_inj h).1; omega
  | .precedence _, .and _, h => by simp only [sc] at h; have := (p_inj h).1; omega
  | .precedence _, .or _, h => by simp only [sc] at h; have := (p_inj h).1; omega
  | .and _, .predicate _ _ _, h => by simp only [sc] at h; have := (p_inj h).1; omega
  | .and _, .precedence _, h => by simp only [sc] at h; have := (p_inj h).1; omega
  | .and _, .or _, h => by simp only [sc] at h; have := (p_inj h).1; omega
  | .or _, .predicate _ _ _, h => by simp only [sc] at h; have := (p_inj h).1; omega
  | .or _, .precedence _, h => by simp only [sc] at h; have := (p_inj h).1; omega
  | .or _, .and _, h => by simp only [sc] at h; have := (p_inj h).1; omega
theorem scL_inj : ∀ a b, scL a = scL b → a = b
  | [], [], _ => rfl
  | x :: l, y :: m, h => by
    simp only [scL] at h
    obtain ⟨h1, h2⟩ := p_inj (by omega : p (sc x) (scL l) = p (sc y) (scL m))
    rw [sc_inj _ _ h1, scL_inj _ _ h2]
  | [], _ :: _, h => by simp only [scL] at h; omega
  | _ :: _, [], h => by simp only [scL] at h; omega
end

def action : LexerAction → Nat
  | .channel c => p 0 (int c)
  | .custom r a => p 1 (p (int r) (int a))
  | .mode m => p 2 (int m)
  | .more => p 3 0
  | .popMode => p 4 0
  | .pushMode m => p 5 (int m)
  | .skip => p 6 0
  | .type t => p 7 (int t)
  | .indexedCustom o a => p 8 (p (int o) (action a))

theorem action_inj (a : LexerAction) : ∀ b, action a = action b → a = b := by
  induction a with
  | indexedCustom o a ih =>
    intro b h
    cases b with
    | indexedCustom o' a' =>
      simp only [action] at h
      obtain ⟨h1, h2⟩ := p_inj (p_inj h).2
      rw [int_inj h1, ih a' h2]
    | _ => simp only [action] at h; have := (p_inj h).1; omega
  | custom r a =>
    intro b h
    cases b with
    | custom r' a' =>
      simp only [action] at h
      obtain ⟨h1, h2⟩ := p_inj (p_inj h).2
      rw [int_inj h1, int_inj h2]
    | _ => simp only [action] at h; have := (p_inj h).1; omega
  | channel c =>
    intro b h
    cases b with
    | channel c' => simp only [action] at h; rw [int_inj (p_inj h).2]
    | _ => simp only [action] at h; have := (p_inj h).1; omega
  | mode c =>
    intro b h
    cases b with
    | mode c' => simp only [action] at h; rw [int_inj (p_inj h).2]
    | _ => simp only [action] at h; have := (p_inj h).1; omega
  | pushMode c =>
    intro b h
    cases b with
    | pushMode c' => simp only [action] at h; rw [int_inj (p_inj h).2]
    | _ => simp only [action] at h; have := (p_inj h).1; omega
  | type c =>
    intro b h
    cases b with
    | type c' => simp only [action] at h; rw [int_inj (p_inj h).2]
    | _ => simp only [action] at h; have := (p_inj h).1; omega
  | more =>
    intro b h
    cases b with
    | more => rfl
    | _ => simp only [action] at h; have := (p_inj h).1; omega
  | popMode =>
    intro b h
    cases b with
    | popMode => rfl
    | _ => simp only [action] at h; have := (p_inj h).1; omega
  | skip =>
    intro b h
    cases b with
    | skip => rfl
    | _ => simp only [action] at h; have := (p_inj h).1; omega

/-- A list, given a numbering of its items. -/
def list {α : Type} (f : α → Nat) : List α → Nat
  | [] => 0
  | x :: l => p (f x) (list f l) + 1

theorem list_inj {α : Type} {f : α → Nat} (hf : ∀ a b, f a = f b → a = b) (l : List α) :
    ∀ m, list f l = list f m → l = m := by
  induction l with
  | nil => intro m h; cases m with
    | nil => rfl
    | cons => simp only [list] at h; omega
  | cons x l ih => intro m h; cases m with
    | nil => simp only [list] at h; omega
    | cons y m =>
      simp only [list] at h
      obtain ⟨h1, h2⟩ := p_inj (by omega : p (f x) (list f l) = p (f y) (list f m))
      rw [hf _ _ h1, ih m h2]

def kind : ConfigType → Nat
  | .base => 0
  | .lexer none b => 2 * bool b + 2
  | .lexer (some l) b => 2 * p (list action l) (bool b) + 1

theorem kind_inj (a b : ConfigType) (h : kind a = kind b) : a = b := by
  cases a with
  | base => cases b with
    | base => rfl
    | lexer e c => cases e <;> simp only [kind] at h <;> omega
  | lexer e c => cases b with
    | base => cases e <;> simp only [kind] at h <;> omega
    | lexer e' c' =>
      cases e <;> cases e' <;> simp only [kind] at h
      · rw [bool_inj (by omega : bool c = bool c')]
      · omega
      · omega
      · rename_i l l'
        obtain ⟨h1, h2⟩ := p_inj (by omega : p (list action l) (bool c) = p (list action l') (bool c'))
        rw [list_inj (fun a b => action_inj a b) _ _ h1, bool_inj h2]

def config (c : Config) : Nat :=
  p c.state (p (int c.alt) (p (pc c.ctx) (p (sc c.sem) (p (int c.reaches) (p (bool c.suppressed) (kind c.kind))))))

theorem config_inj (a b : Config) (h : config a = config b) : a = b := by
  obtain ⟨a1, a2, a3, a4, a5, a6, a7⟩ := a
  obtain ⟨b1, b2, b3, b4, b5, b6, b7⟩ := b
  simp only [config] at h
  obtain ⟨h1, h⟩ := p_inj h
  obtain ⟨h2, h⟩ := p_inj h
  obtain ⟨h3, h⟩ := p_inj h
  obtain ⟨h4, h⟩ := p_inj h
  obtain ⟨h5, h⟩ := p_inj h
  obtain ⟨h6, h7⟩ := p_inj h
  rw [h1, int_inj h2, pc_inj _ _ h3, sc_inj _ _ h4, int_inj h5, bool_inj h6, kind_inj _ _ h7]

/-- A number for every list of configurations. -/
def configs (l : List Config) : Nat := list config l

theorem configs_inj {l m : List Config} (h : configs l = configs m) : l = m := list_inj config_inj l m h

end Antlr.Encode

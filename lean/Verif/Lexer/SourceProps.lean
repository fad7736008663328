import Verif.Lexer.Types
import Verif.Lexer.TotalProps

/-!
# A lexer as source of a token stream: C78

What `Source` assumes of the source of a token stream holds of lexers: they answer, and one of the answers is EOF.
-/

namespace Antlr.EndProps
open Antlr Lexer LexCache LexSpec LexCacheProps LexTotal LexTotalProps LexTypes EndSpec

variable {D : Type} [InputData D] {env : Env D} {fc fe fn : Nat}

theorem nextTokens_take (k : Nat) : ∀ (K : Nat) (L : Lex D) (dfas : List DFA) (r : List Tok × Lex D × List DFA), k ≤ K →
    nextTokens env fc fe fn K L dfas = some r → (nextTokens env fc fe fn k L dfas).map (·.1) = some (r.1.take k) := by
  induction k with
  | zero => intro K L dfas r _ _; rfl
  | succ k ih =>
    intro K L dfas r hk h
    obtain ⟨K, rfl⟩ : ∃ m, K = m + 1 := ⟨K - 1, by omega⟩
    simp only [nextTokens] at h ⊢
    obtain ⟨q, e, h⟩ := Option.bind_eq_some_iff.1 h
    obtain ⟨p, e', rfl⟩ := Option.map_eq_some_iff.1 h
    have := ih K _ _ _ (by omega) e'
    rw [e]
    obtain ⟨x, h1, h2⟩ := Option.map_eq_some_iff.1 this
    rw [Option.bind_some, h1]
    simp [h2]

/-- The tokens determine the source. -/
theorem lexed_unique {L : Lex D} {dfas : List DFA} {a b : Source} (ha : Lexed env fc fe fn L dfas a)
    (hb : Lexed env fc fe fn L dfas b) : a = b := by
  have key : ∀ {a b : Source}, Lexed env fc fe fn L dfas a → Lexed env fc fe fn L dfas b → a.pre.length ≤ b.pre.length →
      a = b := by
    intro a b ha hb hle
    have h1 := ha (a.pre.length + 1) (Nat.le_refl _)
    have h2 := hb (a.pre.length + 1) (by omega)
    rw [h1, Option.some.injEq] at h2
    rw [List.take_of_length_le (by simp)] at h2
    by_cases hl : a.pre.length = b.pre.length
    · rw [List.take_of_length_le (by simp [hl])] at h2
      have := List.append_inj h2 hl
      cases a; cases b
      simp_all
    · have hlt : a.pre.length < b.pre.length := by omega
      have : a.eof ∈ b.pre := by
        have h3 : (a.pre ++ [a.eof])[a.pre.length]? = some a.eof := by simp
        rw [h2, List.getElem?_take_of_lt (by omega), List.getElem?_append_left hlt] at h3
        exact List.mem_of_getElem? h3
      exact absurd a.eof_eq (b.pre_ne _ this)
  rcases Nat.le_total a.pre.length b.pre.length with h | h
  · exact key ha hb h
  · exact (key hb ha h).symm

variable {d : D} {cs : List Int} {ix : Nat → Int} {sl : Nat → Nat → D}

/-- **C78** Lexers are sources.  For every text a lexer, under the conditions of C69, answers the requests of a token
stream with finitely many tokens and then EOF; types and channels are among those of the grammar. -/
theorem C78_source (hw : Whole env.atn) {N : Nat} (hl : NoLoop env.atn N) (hne : NoEmpty env.atn)
    (hh : TellsApart env.hash) (ht : Tame env) (R : Reads d cs ix sl) (hs : Sane d)
    (hfc : (N * N + N + 1) * (cs.length + 1) ≤ fc) (hfe : (N * N + N + 1) * (cs.length + 1) ≤ fe)
    (hfn : 2 * cs.length + 3 ≤ fn) {dfas : List DFA} (hr : Reached env.atn env.hash fc dfas)
    (hroom : Room ((cs.length + 1) * (fe + 1)) dfas) {Ty Ch : Int → Prop} (H : Within env Ty Ch) :
    ∃ src, Lexed env fc fe fn (Lex.new (InputStream.new d)) dfas src ∧ src.pre.length ≤ cs.length + 1 ∧
      ∀ t ∈ src.pre, Ty t.ttype ∧ Ch t.channel := by
  obtain ⟨ts, L, dfas', h, hlen, hlast⟩ := C69_lexing_returns hw hl hne hh ht R hs hfc hfe hfn hr hroom (cs.length + 2)
  have hok := nextTokens_within H _ _ _ _ (reached_ok (of_actions H) (fun _ _ h => h) hr) h
  have hex : ∃ e, ts[cs.length + 1]? = some e := ⟨_, List.getElem?_eq_getElem (by omega)⟩
  obtain ⟨e, he⟩ := hex
  have hee : e.ttype = TOKEN_EOF := by rw [hlast _ e (Nat.le_refl _) he]; rfl
  have hspan : ∃ pre t post, ts = pre ++ t :: post ∧ (∀ x ∈ pre, x.ttype ≠ TOKEN_EOF) ∧ t.ttype = TOKEN_EOF := by
    have := List.mem_of_getElem? he
    clear he hlast hok h hlen
    induction ts with
    | nil => cases this
    | cons x ts ih =>
      by_cases hx : x.ttype = TOKEN_EOF
      · exact ⟨[], x, ts, rfl, by simp, hx⟩
      · rcases List.mem_cons.1 this with rfl | this
        · exact absurd hee hx
        · obtain ⟨pre, t, post, rfl, h1, h2⟩ := ih this
          exact ⟨x :: pre, t, post, rfl, by simpa using ⟨hx, h1⟩, h2⟩
  obtain ⟨pre, t, post, rfl, hpre, ht'⟩ := hspan
  refine ⟨⟨pre, t, hpre, ht'⟩, fun k hk => ?_, ?_, ?_⟩
  · have hk' : k ≤ pre.length + 1 := hk
    simp only [List.length_append, List.length_cons] at hlen
    rw [nextTokens_take k _ _ _ _ (by omega) h, Option.some.injEq]
    show (pre ++ t :: post).take k = (pre ++ [t]).take k
    rw [show pre ++ t :: post = (pre ++ [t]) ++ post by simp, List.take_append_of_le_length (by simp; omega)]
  · simp only [List.length_append, List.length_cons] at hlen
    show pre.length ≤ _
    omega
  · intro x hx
    have := hok x (List.mem_append_left _ hx)
    exact ⟨this.1.resolve_right (hpre x hx), this.2⟩

end Antlr.EndProps

import Verif.Lexer.Spec
import Verif.TokenStream.Spec

/-!
# A lexer as source of a token stream

`UnbufferedTokenStream` asks its source for tokens until it gets EOF and not again (`C15_invariant`: at most
`eofIdx + 1` requests).  Here: what a lexer answers to these requests.
-/

namespace Antlr.EndSpec
open Antlr Lexer LexSpec

variable {D : Type} [InputData D]

/-- The lexer in state `L`, with the DFAs `dfas`, answers the requests of a token stream with the tokens of `src`. -/
def Lexed (env : Env D) (fc fe fn : Nat) (L : Lex D) (dfas : List DFA) (src : Source) : Prop :=
  ∀ k, k ≤ src.pre.length + 1 →
    (nextTokens env fc fe fn k L dfas).map (·.1) = some ((src.pre ++ [src.eof]).take k)

/-- The lexer sets token types `Ty` and channels `Ch`: those of its rules and of its actions. -/
structure Within (env : Env D) (Ty Ch : Int → Prop) : Prop where
  rule : ∀ t ∈ env.atn.ruleToTokenType, Ty t
  type : ∀ t, .type t ∈ env.atn.lexerActions → Ty t
  channel : ∀ c, .channel c ∈ env.atn.lexerActions → Ch c
  default : Ch 0
  plain : ∀ o a, .indexedCustom o a ∉ env.atn.lexerActions
  actionType : ∀ r a L, (env.action r a L).ttype = L.ttype ∨ Ty (env.action r a L).ttype
  actionChannel : ∀ r a L, (env.action r a L).channel = L.channel ∨ Ch (env.action r a L).channel
  emitType : ∀ L, (env.beforeEmit L).ttype = L.ttype
  emitChannel : ∀ L, (env.beforeEmit L).channel = L.channel ∨ Ch (env.beforeEmit L).channel

end Antlr.EndSpec

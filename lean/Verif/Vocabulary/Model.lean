/-!
# Model of `src/vocabulary.rs`
-/

namespace Antlr

/-- `x as usize` for an `isize` on a 64-bit machine. -/
def asUsize (x : Int) : Nat := (x % 2 ^ 64).toNat

/-- `VocabularyImpl`, src/vocabulary.rs:20-25 -/
structure Vocabulary where
  literalNames : List (Option String)
  symbolicNames : List (Option String)
  displayNames : List (Option String)
  maxTokenType : Int
deriving DecidableEq, Repr

namespace Vocabulary

/-- `new`, src/vocabulary.rs:36-55 -/
def new (literal symbolic : List (Option String)) (display : Option (List (Option String))) :
    Vocabulary :=
  let display := display.getD []
  ⟨literal, symbolic, display,
    (max literal.length (max symbolic.length display.length) : Nat) - 1⟩

/-- One step of the loop of `from_token_names`, src/vocabulary.rs:63-78: the literal and the
symbolic name left for a token name.  `isUpper` is `char::is_uppercase`. -/
def classify (isUpper : Char → Bool) (tn : Option String) : Option String × Option String :=
  match tn with
  | none => (none, none)
  | some s =>
    match s.toList with
    | [] => (none, none)
    | c :: _ =>
      if c = '\'' then (some s, none)
      else if isUpper c then (none, some s)
      else (none, none)

/-- `from_token_names`, src/vocabulary.rs:57-86.  The loop touches position `i` of both tables only
in its `i`-th round, so it is a map. -/
def fromTokenNames (isUpper : Char → Bool) (names : List (Option String)) : Vocabulary :=
  new (names.map fun n => (classify isUpper n).1) (names.map fun n => (classify isUpper n).2)
    (some names)

/-- `get_literal_name`, src/vocabulary.rs:94-98 -/
def getLiteralName (v : Vocabulary) (t : Int) : Option String :=
  (v.literalNames[asUsize t]?).bind id

/-- `get_symbolic_name`, src/vocabulary.rs:100-107 -/
def getSymbolicName (v : Vocabulary) (t : Int) : Option String :=
  if t = -1 then some "EOF" else (v.symbolicNames[asUsize t]?).bind id

/-- `get_display_name`, src/vocabulary.rs:109-117 -/
def getDisplayName (v : Vocabulary) (t : Int) : String :=
  ((((v.displayNames[asUsize t]?).bind id).or (v.getLiteralName t)).or
    (v.getSymbolicName t)).getD (toString t)

end Vocabulary
end Antlr

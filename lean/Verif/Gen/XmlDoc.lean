import Verif.Gen.XmlDocSpec
import Verif.Gen.XmlText

/-!
# The XML lexer on texts of characters, comments, CDATA sections and declarations: C79
-/

namespace Antlr.XmlProps
open Antlr Lexer LexCache LexSpec LexProps LexPaths LexCacheProps LexPathProps LexTotal LexTotalProps LexLazy LexExample XmlDoc
open Antlr.Gen (xmlLexer xmlEnv emptyDfas)

variable {D : Type} [InputData D] {d : D} {cs : List Int} {ix : Nat → Int} {sl : Nat → Nat → D}

seal Antlr.Gen.xmlLexer

theorem item_pos {x : Item} (hx : x.Proper) : 0 < x.text.length := by
  cases x with
  | run b =>
    have := (hx.run rfl).1
    simpa [Item.text, Item.opening, Item.closing] using List.length_pos_iff.2 this
  | _ => simp [Item.text, Item.opening]

theorem item_first {x : Item} (hx : x.Proper) (hr : x.isRun = false) {n : Nat} {rest : List Int} (h : cs.drop n = x.text ++ rest) :
    ∀ q, x.opening.length ≤ q → Stands cs (n + q) x.closing → x.text.length ≤ q + x.closing.length := by
  intro q hq ht
  by_contra hlt
  refine hlt (hx.first hr q hq ?_)
  unfold Stands at ht
  rw [← List.drop_drop, h, List.drop_append_of_le_length (by omega)] at ht
  exact List.prefix_of_prefix_length_le ht (List.prefix_append _ _) (by simp; omega)

theorem item_plain {x : Item} (hx : x.Proper) (h0 : x.type = none) {n : Nat} {rest : List Int} (h : cs.drop n = x.text ++ rest) :
    ¬ Stands cs n commentOpen ∧ ¬ Stands cs n cdataOpen := by
  have key : ∀ w : List Int, 62 ∉ w → ¬ w <+: x.text → ¬ Stands cs n w := by
    intro w h1 h2 ht
    unfold Stands at ht
    rw [h] at ht
    rcases List.prefix_or_prefix_of_prefix ht (List.prefix_append x.text rest) with k | k
    · exact h2 k
    · refine h1 (k.subset ?_)
      cases x <;> simp [Item.text, Item.closing, Item.type] at h0 ⊢
  exact ⟨key _ (by decide) (hx.plain h0).1, key _ (by decide) (hx.plain h0).2⟩

/-- The first token with its own fuel, and the tokens after it. -/
theorem xml_items {hash : List Config → Nat} {toChars : D → List Char} (hh : TellsActionsApart hash)
    (R : Reads d cs ix sl) (hs : Sane d) {fc fe fn : Nat} (hfc : 133 * (cs.length + 1) ≤ fc) (hfe : 133 * (cs.length + 1) ≤ fe)
    (items : List Item) : ∀ (f n : Nat) (L : Lex D) (dfas : List DFA), (∀ x ∈ items, x.Proper) → Separate items → cs.drop n = items.flatMap Item.text →
      n ≤ cs.length → 2 * items.length + 1 ≤ f → 2 * items.length + 1 ≤ fn → L.cur = at_ d cs ix n → L.mode = 0 →
      (L.hitEof = true ↔ n = cs.length) → Reached xmlLexer hash fc dfas → Room (items.length * (fe + 1)) dfas → 0 < dfas.length →
      ∃ L' dfas', ((nextToken (xmlEnv hash toChars) fc fe f L dfas).bind fun r =>
        (LexSpec.nextTokens (xmlEnv hash toChars) fc fe fn (tokens cs ix sl toChars n items).length r.2.1 r.2.2).map fun q =>
          (r.1 :: q.1, q.2)) = some (tokens cs ix sl toChars n items ++ [eofToken cs ix], L', dfas') := by
  induction items with
  | nil =>
    intro f n L dfas _ _ ht hn hf _ hc _ he _ _ _
    obtain ⟨f, rfl⟩ : ∃ g, f = g + 1 := ⟨f - 1, by simp at hf; omega⟩
    have : n = cs.length := by
      have := congrArg List.length ht
      simp at this
      omega
    subst this
    refine ⟨{ L with token := none }, dfas, ?_⟩
    unfold nextToken
    have hit := he.2 rfl
    simp only [outerLoop, hit, ↓reduceIte, Option.bind_some, emitEof, Option.map_some, tokens, List.length_nil, LexSpec.nextTokens, hc]
    rfl
  | cons x items ih =>
    intro f n L dfas hp hsep ht hn hf hfn hc hm he hr hroom hl
    have hx := hp x (by simp)
    rw [List.flatMap_cons] at ht
    have hst : Stands cs n (x.opening ++ x.body ++ x.closing) := by
      unfold Stands; rw [ht]; exact List.prefix_append _ _
    have hfit : n + x.text.length ≤ cs.length := word_fits hst hn
    have hpos := item_pos hx
    have hsep' : Separate items := by
      cases items with
      | nil => trivial
      | cons y ys => exact hsep.2
    have he' : L.hitEof = false := by
      cases h : L.hitEof with
      | false => rfl
      | true => have := he.1 h; omega
    have ht' : cs.drop (n + x.text.length) = items.flatMap Item.text := by
      rw [← List.drop_drop, ht, List.drop_left]
    have hroom' : Room (items.length * (fe + 1) + (fe + 1)) dfas := by
      rw [← Nat.succ_mul]; exact hroom
    simp only [List.length_cons] at hf hfn
    by_cases h0 : x.type = none
    · obtain ⟨f, rfl⟩ : ∃ g, f = g + 2 := ⟨f - 2, by omega⟩
      obtain ⟨b, rfl⟩ : ∃ b, x = .decl b := by
        cases x with
        | decl b => exact ⟨b, rfl⟩
        | _ => cases h0
      obtain ⟨L1, dfas1, h1, h2, h3, -, h5, h6, h7, h8⟩ := C79_xml_skip_partial (toChars := toChars) (fn := f) hh R hs hfc hfe hr
        hroom' hm he' hl hn hc (hx.chars rfl) (item_plain hx rfl ht) hst (item_first hx rfl ht) rfl
      rw [h1]
      exact ih f _ L1 dfas1 (fun y hy => hp y (List.mem_cons_of_mem _ hy)) hsep' ht' hfit (by omega) (by omega) h2 h3 h5 h6 h7 (by omega)
    · obtain ⟨tt, htt⟩ := Option.ne_none_iff_exists'.1 h0
      obtain ⟨L1, dfas1, h1, h2, h3, h5, h6, h7, h8⟩ : ∃ L' dfas', nextToken (xmlEnv hash toChars) fc fe f L dfas = some (
          { ttype := tt, channel := 0, start := ix n, stop := ix (n + x.text.length) - 1, line := lineOf cs n, column := colOf cs n,
            index := -1, text := toChars (sl n (n + x.text.length)) }, L', dfas') ∧
          L'.cur = at_ d cs ix (n + x.text.length) ∧ L'.mode = 0 ∧ (L'.hitEof = true ↔ n + x.text.length = cs.length) ∧
          Reached xmlLexer hash fc dfas' ∧ Room (items.length * (fe + 1)) dfas' ∧ dfas'.length = dfas.length := by
        cases hrun : x.isRun with
        | false =>
          exact C79_xml_token_partial (toChars := toChars) (fn := f) (op := x.opening)
            (cl := x.closing) (tt := tt) hh R hs hfc hfe (by omega) hr hroom' hm he' hl hn hc (hx.chars hrun) (by
              cases x with
              | comment b => cases htt; exact .inl ⟨rfl, rfl, rfl⟩
              | cdata b => cases htt; exact .inr ⟨rfl, rfl, rfl⟩
              | decl b => cases htt
              | run b => cases hrun) hst (item_first hx hrun ht) rfl
        | true =>
          obtain ⟨b, rfl⟩ : ∃ b, x = .run b := by
            cases x with
            | run b => exact ⟨b, rfl⟩
            | _ => cases hrun
          have htext : (Item.run b).text = b := by simp [Item.text, Item.opening, Item.body, Item.closing]
          obtain ⟨r1, r2⟩ := hx.run rfl
          cases htt
          refine C79_xml_run_partial (toChars := toChars) (fn := f) (body := b) hh R hs hfc hfe (by omega) hr hroom' hm he' hl hn hc r1 r2
            (by have := hst; rwa [show (Item.run b).opening ++ (Item.run b).body ++ (Item.run b).closing = b from htext] at this)
            (by rw [htext]) ?_
          intro c hcs
          have hd : (cs.drop (n + (Item.run b).text.length))[0]? = some c := by rw [List.getElem?_drop]; exact hcs
          rw [ht'] at hd
          cases items with
          | nil => simp at hd
          | cons y ys =>
            have hy : y.isRun = false := by
              rcases hsep.1 with e | e
              · cases e
              · exact e
            right
            cases y with
            | run b => cases hy
            | _ => simp [Item.text, Item.opening] at hd; exact hd.symm
      obtain ⟨L2, dfas2, k⟩ := ih fn _ L1 dfas1 (fun y hy => hp y (List.mem_cons_of_mem _ hy)) hsep' ht' hfit (by omega) (by omega) h2 h3 h5
        h6 h7 (by omega)
      refine ⟨L2, dfas2, ?_⟩
      rw [h1]
      simp only [Option.bind_some, tokens, htt, Option.toList_some, List.map_cons, List.map_nil, List.cons_append, List.nil_append,
        List.length_cons]
      rw [LexSpec.nextTokens]
      change Option.map _ ((nextToken (xmlEnv hash toChars) fc fe fn L1 dfas1).bind _) = _
      rw [k]
      rfl

/-- **C79** (partial: the hash of the DFA cache must not collide) A text made of character data, comments, CDATA sections
and declarations is lexed by the XML lexer into exactly the tokens of the character data, comments and CDATA sections, in
order and each with its text, and EOF. -/
theorem C79_xml_document_partial {hash : List Config → Nat} {toChars : D → List Char} (hh : TellsActionsApart hash)
    (R : Reads d cs ix sl) (hs : Sane d) {items : List Item} (hne : items ≠ []) (hp : ∀ x ∈ items, x.Proper)
    (hsep : Separate items) (ht : cs = items.flatMap Item.text) {fc fe fn : Nat} (hfc : 133 * (cs.length + 1) ≤ fc) (hfe : 133 * (cs.length + 1) ≤ fe)
    (hfn : 2 * items.length + 1 ≤ fn) {dfas : List DFA} (hr : Reached xmlLexer hash fc dfas)
    (hroom : Room (items.length * (fe + 1)) dfas) (hl : 0 < dfas.length) :
    ∃ L' dfas', LexSpec.nextTokens (xmlEnv hash toChars) fc fe fn ((tokens cs ix sl toChars 0 items).length + 1)
        (Lex.new (InputStream.new d)) dfas = some (tokens cs ix sl toChars 0 items ++ [eofToken cs ix], L', dfas') := by
  have hpos : 0 < cs.length := by
    cases items with
    | nil => exact absurd rfl hne
    | cons x items =>
      rw [ht, List.flatMap_cons, List.length_append]
      have := item_pos (hp x (by simp))
      omega
  rw [LexSpec.nextTokens]
  exact xml_items hh R hs hfc hfe items fn 0 _ dfas hp hsep (by rw [List.drop_zero]; exact ht) (by omega) hfn hfn
    (by simp [Lex.new, at_, InputStream.new, lineOf, colOf, R.first]) rfl
    ⟨fun h => by simp [Lex.new] at h, fun h => by omega⟩ hr hroom hl

/-! ## The pieces of a text are determined by it -/

theorem item_closes {x : Item} {cs rest : List Int} (h : cs = x.text ++ rest) :
    Stands cs (0 + (x.opening ++ x.body).length) x.closing := by
  unfold Stands
  rw [h, Item.text, Nat.zero_add, List.append_assoc (x.opening ++ x.body), List.drop_left]
  exact List.prefix_append _ _

theorem run_short {b b' r r' : List Int} (h : b ++ r = b' ++ r') (hb : ∀ c ∈ b', c ≠ 60) (hr : ∀ c, r[0]? = some c → c = 60) :
    b'.length ≤ b.length := by
  by_contra hlt
  have e := congrArg (·[b.length]?) h
  simp only [List.getElem?_append_right (Nat.le_refl _), Nat.sub_self,
    List.getElem?_append_left (show b.length < b'.length by omega)] at e
  rw [List.getElem?_eq_getElem (show b.length < b'.length by omega)] at e
  exact hb _ (List.getElem_mem _) (hr _ e)

theorem item_head {x : Item} (hr : x.isRun = false) (rest : List Int) : (x.text ++ rest)[0]? = some 60 := by
  cases x with
  | run b => cases hr
  | _ => simp [Item.text, Item.opening]

theorem run_head {x : Item} (hx : x.Proper) (hr : x.isRun = true) (rest : List Int) : (x.text ++ rest)[0]? ≠ some 60 := by
  cases x with
  | run b =>
    obtain ⟨h1, h2⟩ := hx.run rfl
    cases b with
    | nil => exact absurd rfl h1
    | cons c b =>
      intro e
      simp [Item.text, Item.opening, Item.body, Item.closing] at e
      exact (h2 c (by simp [Item.body])).2.1 e
  | _ => cases hr

theorem item_unique {x y : Item} (hx : x.Proper) (hy : y.Proper) {r r' : List Int} (h : x.text ++ r = y.text ++ r')
    (hr : x.isRun = true → ∀ c, r[0]? = some c → c = 60) (hr' : y.isRun = true → ∀ c, r'[0]? = some c → c = 60) : x = y := by
  cases h1 : x.isRun <;> cases h2 : y.isRun
  · have d1 : (x.text ++ r).drop 0 = x.text ++ r := rfl
    have d2 : (x.text ++ r).drop 0 = y.text ++ r' := h
    have same : x.opening = y.opening → x.closing = y.closing → x.body = y.body := by
      intro e1 e2
      have a1 := item_first hx h1 d1 (y.opening ++ y.body).length (by rw [e1]; simp) (by rw [e2]; exact item_closes h)
      have a2 := item_first hy h2 d2 (x.opening ++ x.body).length (by rw [e1]; simp) (by rw [← e2]; exact item_closes rfl)
      have hl : x.text.length = y.text.length := by
        simp only [Item.text, List.length_append, e1, e2] at a1 a2 ⊢
        omega
      have := (List.append_inj h hl).1
      rw [Item.text, Item.text, e1, e2] at this
      exact List.append_cancel_left (List.append_cancel_right this)
    have p1 : Stands (x.text ++ r) 0 x.opening := by
      unfold Stands; rw [d1, Item.text, List.append_assoc, List.append_assoc]; exact List.prefix_append _ _
    have p2 : Stands (x.text ++ r) 0 y.opening := by
      unfold Stands; rw [d2, Item.text, List.append_assoc, List.append_assoc]; exact List.prefix_append _ _
    cases x with
    | run b => cases h1
    | comment b =>
      cases y with
      | run b' => cases h2
      | comment b' => exact congrArg _ (same rfl rfl)
      | cdata b' => exfalso; rcases stands_both p1 p2 with a | a <;> revert a <;> simp [Item.opening]
      | decl b' => exact absurd p1 (item_plain hy rfl d2).1
    | cdata b =>
      cases y with
      | run b' => cases h2
      | cdata b' => exact congrArg _ (same rfl rfl)
      | comment b' => exfalso; rcases stands_both p1 p2 with a | a <;> revert a <;> simp [Item.opening]
      | decl b' => exact absurd p1 (item_plain hy rfl d2).2
    | decl b =>
      cases y with
      | run b' => cases h2
      | decl b' => exact congrArg _ (same rfl rfl)
      | comment b' => exact absurd p2 (item_plain hx rfl d1).1
      | cdata b' => exact absurd p2 (item_plain hx rfl d1).2
  · exact absurd (h ▸ item_head h1 r) (run_head hy h2 r')
  · exact absurd (h ▸ item_head h2 r') (h ▸ run_head hx h1 r)
  · cases x with
    | run b =>
      cases y with
      | run b' =>
        simp only [Item.text, Item.opening, Item.body, Item.closing, List.nil_append, List.append_nil] at h
        have l1 := run_short h (fun c hc => ((hy.run rfl).2 c hc).2.1) (hr rfl)
        have l2 := run_short h.symm (fun c hc => ((hx.run rfl).2 c hc).2.1) (hr' rfl)
        exact congrArg _ (List.append_inj h (by omega)).1
      | _ => cases h2
    | _ => cases h1

theorem separate_next {x : Item} {xs : List Item} (h : Separate (x :: xs)) (hr : x.isRun = true) :
    Separate xs ∧ ∀ c, (xs.flatMap Item.text)[0]? = some c → c = 60 := by
  cases xs with
  | nil => exact ⟨trivial, fun c e => by simp at e⟩
  | cons y ys =>
    refine ⟨h.2, fun c e => ?_⟩
    have hy : y.isRun = false := by
      rcases h.1 with e | e
      · rw [hr] at e; cases e
      · exact e
    rw [List.flatMap_cons, item_head hy] at e
    exact (Option.some.inj e).symm

theorem separate_tail {x : Item} {xs : List Item} (h : Separate (x :: xs)) : Separate xs := by
  cases xs with
  | nil => trivial
  | cons y ys => exact h.2

/-- **C79** The pieces into which `C79_xml_document_partial` divides a text are determined by the text. -/
theorem C79_xml_pieces : ∀ {xs ys : List Item}, (∀ x ∈ xs, x.Proper) → (∀ y ∈ ys, y.Proper) → Separate xs → Separate ys →
    xs.flatMap Item.text = ys.flatMap Item.text → xs = ys := by
  intro xs
  induction xs with
  | nil =>
    intro ys _ hy _ _ h
    cases ys with
    | nil => rfl
    | cons y ys =>
      have h1 := congrArg List.length h
      have h2 := item_pos (hy y (by simp))
      rw [List.flatMap_cons, List.flatMap_nil, List.length_append, List.length_nil] at h1
      omega
  | cons x xs ih =>
    intro ys hx hy sx sy h
    cases ys with
    | nil =>
      have h1 := congrArg List.length h
      have h2 := item_pos (hx x (by simp))
      rw [List.flatMap_cons, List.flatMap_nil, List.length_append, List.length_nil] at h1
      omega
    | cons y ys =>
      rw [List.flatMap_cons, List.flatMap_cons] at h
      obtain rfl := item_unique (hx x (by simp)) (hy y (by simp)) h (fun e => (separate_next sx e).2) (fun e => (separate_next sy e).2)
      rw [ih (fun z hz => hx z (List.mem_cons_of_mem _ hz)) (fun z hz => hy z (List.mem_cons_of_mem _ hz)) (separate_tail sx)
        (separate_tail sy) (List.append_cancel_left h)]

/-! ## A concrete case -/

/-- `<!x y>\n<!--a-->b \n<![CDATA[]]]>` -/
def docItems : List Item := [.decl [120, 32, 121], .run [10], .comment [97], .run [98, 32, 10], .cdata [93]]

def docText : List Char := "<!x y>\n<!--a-->b \n<![CDATA[]]]>".toList

theorem proper_small {x : Item} (h1 : x.isRun = false → ∀ c ∈ x.body, 0 < c ∧ c < 0x10FFFF)
    (h2 : x.isRun = false → ∀ q < x.text.length, x.opening.length ≤ q → x.closing <+: x.text.drop q →
      x.text.length ≤ q + x.closing.length)
    (h3 : x.type = none → ¬ (Item.comment []).opening <+: x.text ∧ ¬ (Item.cdata []).opening <+: x.text)
    (h4 : x.isRun = true → x.body ≠ [] ∧ ∀ c ∈ x.body, c ≠ 38 ∧ c ≠ 60 ∧ c ≤ 0x10FFFF) : x.Proper :=
  ⟨h1, fun hr q hq h => by
    by_cases hlt : q < x.text.length
    · exact h2 hr q hlt hq h
    · omega, h3, h4⟩

theorem doc_proper : ∀ x ∈ docItems, x.Proper := by
  intro x hx
  simp only [docItems, List.mem_cons, List.not_mem_nil, or_false] at hx
  rcases hx with rfl | rfl | rfl | rfl | rfl <;> exact proper_small (by decide) (by decide) (by decide) (by decide)

example : ∃ L' dfas', LexSpec.nextTokens (xmlEnv Encode.configs Str.chars) 5000 5000 11 5
    (Lex.new (InputStream.new (Str.mk docText))) xmlDfas = some ([
      { ttype := 6, channel := 0, start := 6, stop := 6, line := 1, column := 6, index := -1, text := "\n".toList },
      { ttype := 1, channel := 0, start := 7, stop := 14, line := 2, column := 0, index := -1, text := "<!--a-->".toList },
      { ttype := 9, channel := 0, start := 15, stop := 17, line := 2, column := 8, index := -1, text := "b \n".toList },
      { ttype := 2, channel := 0, start := 18, stop := 30, line := 3, column := 0, index := -1, text := "<![CDATA[]]]>".toList },
      { ttype := -1, channel := 0, start := 31, stop := 30, line := 3, column := 13, index := -1, text := [] }], L', dfas') := by
  obtain ⟨hr, hroom, hl⟩ := xml_new Encode.configs 5000
  obtain ⟨L', dfas', h⟩ := C79_xml_document_partial (toChars := Str.chars) fullHash_ok (reads_str docText) (sane_str _)
    (items := docItems) (by decide) doc_proper (by simp [docItems, Separate, Item.isRun]) (by decide) (fc := 5000) (fe := 5000) (fn := 11)
    (by decide) (by decide) (by decide) hr (hroom _ (by decide)) hl
  exact ⟨L', dfas', h⟩

example {ys : List Item} (hy : ∀ y ∈ ys, y.Proper) (hs : Separate ys) (h : docText.map (fun c => (c.toNat : Int)) = ys.flatMap Item.text) :
    ys = docItems :=
  (C79_xml_pieces doc_proper hy (by simp [docItems, Separate, Item.isRun]) hs (by rw [← h]; decide)).symm

end Antlr.XmlProps

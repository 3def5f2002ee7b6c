import Verif.Proof.DomMarks
import Verif.Proof.DomInjective
import Verif.Props.Layout
import Verif.Props.Expression

/-! # C67: the page says what the formula says -/

namespace Aftermath

/-- **C67.** The elements that are put on the page for a formula have the children that MathML asks
for, and reading them gives the formula: its characters, its containers with their kinds and
columns, and its cells, in order. -/
theorem C67_signs {x : Xid} {row : Row} {e : RElem} (hs : Shown x row e) :
    EltsFit e.elements ∧ eltsSigns e.elements = rowSigns row := by
  obtain ⟨hx, hw, g, m, R, t, h, ht, he⟩ := hs
  obtain ⟨hg, hf⟩ := h.fits hx
  have := made_shows hf (made_parse hg ht) hw _ _ _ he
  rw [segment_all] at this
  exact ⟨this.fit, this.signs⟩

/-- **C67.** Two formulas whose symbols are single characters and that read the same on the page are
the same formula. -/
theorem C67_same {x x' : Xid} {row row' : Row} {e e' : RElem} (hs : Shown x row e)
    (hs' : Shown x' row' e') (h1 : RowOneChar row) (h2 : RowOneChar row')
    (h : eltsSigns e.elements = eltsSigns e'.elements) : row = row' := by
  rw [(C67_signs hs).2, (C67_signs hs').2] at h
  exact (row_inj h1 h2 hs.wf hs'.wf (k := []) (k' := []) trivial trivial (by rw [h])).1

/-- **C67.** There are as many elements marked as missing as the syntax tree has missing tokens, and
as many `merror` elements as it has unknown tokens. -/
theorem C67_marks {x : Xid} (hx : x.Letters) {g : Grammar} {m : NameMap} {R : Renderers}
    (h : Shipped x g m R) {t : SNode} {e : RElem} (he : renderAll R t = .ok e) :
    eltsCount (fun _ marked => marked) e.elements = t.named g.builtIn.missingToken ∧
    eltsCount (fun tag _ => tag == .other "merror".toList) e.elements =
      t.named g.builtIn.unknownToken := by
  obtain ⟨hg, hf⟩ := h.fits hx
  constructor
  · rw [render_count hf (fun _ _ => rfl) he, SNode.weight]
    simp [one]
  · rw [render_count hf (fun _ h => by simpa using h) he, SNode.weight]
    have h1 : one (fun tag _ => tag == .other "merror".toList) .mi true = 0 := rfl
    have h2 : one (fun tag _ => tag == .other "merror".toList) errorTag false = 1 := rfl
    rw [h1, h2]
    omega

/-- **C67.** A formula that is shown is shown without any error mark exactly if it is a well-formed
expression (C50). -/
theorem C67_clean {x : Xid} {g : Grammar} {m : NameMap} {R : Renderers} (h : Shipped x g m R)
    {row : Row} {e : RElem} (hs : Shown x row e) :
    (eltsCount (fun _ marked => marked) e.elements = 0 ∧
      eltsCount (fun tag _ => tag == .other "merror".toList) e.elements = 0) ↔ CleanRow g row := by
  obtain ⟨hx, hw, g', m', R', t, h', ht, he⟩ := hs
  have := h.parser
  rw [h'.parser] at this
  cases this
  have := h.renderer
  rw [h'.renderer] at this
  cases this
  obtain ⟨hg, hf⟩ := h.fits hx
  obtain ⟨g'', m'', hp, -, ha⟩ := createParser_apart hx
  rw [h.parser] at hp
  cases hp
  obtain ⟨t', ht', hc⟩ := C50 g hg ha row hw
  rw [ht] at ht'
  cases ht'
  obtain ⟨h1, h2⟩ := C67_marks hx h he
  rw [h1, h2, ← hc]
  have hacc := made_accompanied hf ha (made_parse hg ht)
  have hz : ∀ n, t.named n = 0 ↔ n ∉ t.names := by
    intro n
    rw [← named_pos]
    omega
  rw [hz, hz]
  unfold ErrorFree Grammar.errorNames
  simp only [List.mem_cons, List.not_mem_nil, or_false, not_or]
  constructor
  · rintro ⟨h1, h2⟩ n hn
    refine ⟨?_, ?_, ?_⟩
    · rintro rfl
      exact h1 (hacc hn)
    · rintro rfl
      exact h1 hn
    · rintro rfl
      exact h2 hn
  · intro h
    exact ⟨fun hn => (h _ hn).2.1 rfl, fun hn => (h _ hn).2.2 rfl⟩

/-- The render function for the tag of a token. -/
def tokenKind : Tag → RKind
  | .mo => .operator
  | .other _ => .unknownToken
  | tag => .text tag

theorem tokenKinds {x : Xid} (hx : x.Letters) {g : Grammar} {m : NameMap} {R : Renderers}
    (h : Shipped x g m R) : ∀ e ∈ tokenTags, ∃ n, hashGet m.values e.1 = some n ∧
      hashGet R n = some (tokenKind e.2) := by
  have hd : (match createParser letterXid with
      | .ok r => (match newRenderer (joinNames r.2) with
        | .ok R => tokenTags.all fun e => match hashGet r.2.values e.1 with
          | some n => hashGet R n == some (tokenKind e.2)
          | none => false
        | .error _ => false)
      | .error _ => false) = true := by decide +kernel
  have hp := h.parser
  rw [createParser_eq hx] at hp
  cases hc : createParser letterXid with
  | error e => rw [hc] at hd; cases hd
  | ok r =>
    rw [hc] at hd hp
    cases hp
    simp only [h.renderer, List.all_eq_true] at hd
    intro e he
    have := hd e he
    split at this
    · rename_i n hn
      exact ⟨n, hn, by simpa using this⟩
    · cases this

/-- **C67.** Each token is put on the page as the MathML element that is meant for it: numbers as
`mn`, variables and constants as `mi`, text as `mtext`, operators as `mo`, and unknown tokens as
`merror`, with the symbols of the token as its text. -/
theorem C67_tokens {x : Xid} (hx : x.Letters) {g : Grammar} {m : NameMap} {R : Renderers}
    (h : Shipped x g m R) {path : PathId} {tag : Tag} (ht : (path, tag) ∈ tokenTags)
    {n lo hi : Nat} (hn : hashGet m.values path = some n) {ty : LeafType} {ss : List Str}
    (ri : Option RowIndex) (o : ROpts) :
    ∃ e, render R ri o (.leaf n lo hi ty ss) = .ok e ∧
      e.elements = [.elem tag false (ss.map .text)] := by
  obtain ⟨n', h1, h2⟩ := tokenKinds hx h _ ht
  rw [hn] at h1
  cases h1
  simp only at h2
  have hcases : tag = .mi ∨ tag = .mn ∨ tag = .mtext ∨ tag = .mo ∨ tag = .other "merror".toList := by
    simp only [tokenTags, List.mem_cons, Prod.mk.injEq, List.not_mem_nil, or_false] at ht
    rcases ht with ⟨-, h⟩ | ⟨-, h⟩ | ⟨-, h⟩ | ⟨-, h⟩ | ⟨-, h⟩ | ⟨-, h⟩ | ⟨-, h⟩ | ⟨-, h⟩
    all_goals rw [h]; simp
  rcases hcases with rfl | rfl | rfl | rfl | rfl
  all_goals
    rw [render, h2]
    simp only [tokenKind]
    exact ⟨_, rfl, by rw [RElem.elements, SNode.texts]⟩

/-- A root with degree `3` and radicand `x` squared, and a table with an empty cell. -/
def rootAndTable : Row :=
  [.container .root [[.symbol ['3']], [.symbol ['x'], .sup [.symbol ['2']]]] 2,
    .container .table [[.symbol ['a']], []] 2]

/-- What is read for it: the degree comes first, the empty cell says nothing but is marked. The two
containers stand next to each other without an operator, which is marked as well. -/
example : ((shownFor letterXid rootAndTable).map fun e => (eltsSigns e.elements,
      eltsCount (fun _ marked => marked) e.elements)) =
    some ([.enter .root 0, .char '3', .cellEnd, .char 'x', .enter .sup 0, .char '2', .cellEnd,
      .leave, .cellEnd, .leave, .enter .table 2, .char 'a', .cellEnd, .cellEnd, .leave], 2) := by
  decide +kernel

/-- The shipped grammar has a name for each of the tokens. -/
example : ∃ g m R n, Shipped letterXid g m R ∧
    hashGet m.values ["Arithmetic".toList, "Number".toList] = some n := by
  obtain ⟨g, m, R, h1, h2, -⟩ := createParser_fits letterXid_letters
  obtain ⟨n, hn, -⟩ := tokenKinds letterXid_letters ⟨h1, h2⟩ (_, .mn)
    (List.mem_cons_of_mem _ List.mem_cons_self)
  exact ⟨g, m, R, n, ⟨h1, h2⟩, hn⟩

/-- It is shown, so the theorems apply to it. -/
example : ∃ e, Shown letterXid rootAndTable e ∧ RowOneChar rootAndTable ∧
    eltsSigns e.elements = rowSigns rootAndTable := by
  have h : (shownFor letterXid rootAndTable).isSome = true := by decide +kernel
  obtain ⟨e, he⟩ := Option.isSome_iff_exists.1 h
  have hs := shownFor_shown letterXid_letters (by decide) he
  exact ⟨e, hs, by simp [rootAndTable, RowOneChar, Node.OneChar, CellsOneChar, Node.sup],
    (C67_signs hs).2⟩

end Aftermath

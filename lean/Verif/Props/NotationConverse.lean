import Verif.Proof.NotationConverse
import Verif.Proof.NotationErrors
import Verif.Props.Notation
import Verif.Props.Dom

/-! # C78: exactly the rows of the notation are read without errors -/

namespace Aftermath

/-- **C78** With the rules that are shipped, a row of single characters is read without errors if and
only if it is a way to write some formula, and then the tree conveys that formula. -/
theorem C78 (x : Xid) (hx : x.Usual) :
    ∃ g m, createParser x = .ok (g, m) ∧ ∀ row, rowWf row = true → PlainRow row →
      ∃ t, g.parse row = .ok t ∧ (ErrorFree g t ↔ ∃ e : Formula, e.Writes x 0 0 row) ∧
        ∀ e, Conveys m t e ↔ e.Writes x 0 0 row := by
  obtain ⟨g, m, h, hg, ha⟩ := createParser_apart hx.toLetters
  have S := createParser_std hx.toLetters h
  refine ⟨g, m, h, fun row hw hpl => ?_⟩
  obtain ⟨t, ht, hc⟩ := C50 g hg ha row hw
  have back : ∀ e : Formula, e.Writes x 0 0 row → Conveys m t e := by
    intro e he
    obtain ⟨t', ht', hs⟩ := parses_writes S hx he
    rw [ht] at ht'
    cases ht'
    exact hs
  refine ⟨t, ht, ⟨fun he => cleanRow_written S (hc.1 he) hpl hw, ?_⟩, fun e => ⟨fun hs => ?_, back e⟩⟩
  · rintro ⟨e, he⟩
    exact conveys_errorFree S (back e he)
  · obtain ⟨e', he'⟩ := cleanRow_written S (hc.1 (conveys_errorFree S hs)) hpl hw
    rwa [conveys_unique S hs (back e' he')]

/-- **C78** A formula that is shown is shown without error marks if and only if it is one of the
notation. -/
theorem C78_shown {x : Xid} (hx : x.Usual) {row : Row} {e : RElem} (hs : Shown x row e)
    (hpl : PlainRow row) :
    (eltsCount (fun _ marked => marked) e.elements = 0 ∧
      eltsCount (fun tag _ => tag == .other "merror".toList) e.elements = 0) ↔
    ∃ f : Formula, f.Writes x 0 0 row := by
  obtain ⟨g, m, R, h⟩ := C57_setup hx.toLetters
  rw [C67_clean h hs]
  obtain ⟨g', m', hp, hall⟩ := C78 x hx
  rw [h.parser] at hp
  cases hp
  obtain ⟨g', m', h1, hg, ha⟩ := createParser_apart hx.toLetters
  rw [h.parser] at h1
  cases h1
  obtain ⟨t, ht, hc⟩ := C50 g hg ha row hs.wf
  obtain ⟨t', ht', hc', -⟩ := hall row hs.wf hpl
  rw [ht] at ht'
  cases ht'
  exact hc.symm.trans hc'

/-! ## Examples -/

theorem plain_symbols (s : List Char) : PlainRow (s.map sy) := by
  intro p r t hp ht
  cases p with
  | nil =>
    cases hp
    obtain ⟨c, -, h⟩ := List.mem_map.1 ht
    cases h
    exact ⟨c, rfl⟩
  | cons ij p =>
    obtain ⟨i, j⟩ := ij
    rw [rowAt, List.getElem?_map] at hp
    cases hi : s[i]? <;> simp [hi, sy] at hp

theorem wf_symbols (s : List Char) : rowWf (s.map sy) = true := by
  induction s with
  | nil => rfl
  | cons c s ih => rw [List.map_cons, rowWf, ih]; rfl

/-- The row is read without errors. -/
def readsText (s : String) : Bool :=
  match createParser letterXid with
  | .error _ => false
  | .ok (g, _) =>
    match g.parse (rowOf s) with
    | .error _ => false
    | .ok t => t.names.all fun n => !g.errorNames.contains n

theorem readsText_iff (s : String) :
    readsText s = true ↔ ∃ e : Formula, e.Writes letterXid 0 0 (rowOf s) := by
  obtain ⟨g, m, h, hp⟩ := C78 letterXid letterXid_usual
  obtain ⟨t, ht, he, -⟩ := hp (rowOf s) (wf_symbols _) (plain_symbols _)
  rw [← he, readsText, h]
  simp only [ht]
  simp [ErrorFree]

-- Without the theorem, that a text is no way to write any formula would be a statement about all
-- formulas. A number is not multiplied by a variable without a sign, brackets with a space in them are
-- not empty brackets, and operators need their operands.
-- A variable cannot be called `limit`: this is the limit of `it`.
example : (∃ e : Formula, e.Writes letterXid 0 0 (rowOf "-f( x,12 )! = ab/ (b)")) ∧
    (¬ ∃ e : Formula, e.Writes letterXid 0 0 (rowOf "2x")) ∧
    (∃ e : Formula, e.Writes letterXid 0 0 (rowOf "f()")) ∧
    (¬ ∃ e : Formula, e.Writes letterXid 0 0 (rowOf "f( )")) ∧
    (¬ ∃ e : Formula, e.Writes letterXid 0 0 (rowOf "a+*b")) ∧
    (¬ ∃ e : Formula, e.Writes letterXid 0 0 (rowOf "(a")) ∧
    (¬ ∃ e : Formula, e.Writes letterXid 0 0 (rowOf "lim")) ∧
    (∃ e : Formula, e.Writes letterXid 0 0 (rowOf "limit")) ∧
    ¬ ∃ e : Formula, e.Writes letterXid 0 0 (rowOf "") := by
  simp only [← readsText_iff]
  decide +kernel

end Aftermath

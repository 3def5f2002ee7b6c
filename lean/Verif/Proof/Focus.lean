import Verif.Proof.Edit
import Mathlib.Data.List.Induction

/-! # Focus: the focus of a path, parents and children -/

namespace Aftermath

/-- `f` is the focus that walking down from the root along `p` produces. -/
inductive IsFocus (root : Row) : RowIndices → FocusRow → Prop
  | root : IsFocus root [] (.root root [])
  | child {p p' : RowIndices} {f : FocusRow} {i j : Nat} {v : Variant} {cells : List Row} {w : Nat}
      {c : Row} (hf : IsFocus root p f) (hi : f.row[i]? = some (.container v cells w))
      (hj : GridVec.getLinear ⟨cells, w⟩ j = .ok (some c)) (hp : p' = p ++ [(i, j)]) :
      IsFocus root p' (.child c (.container v cells w) (f.setIndices []) i p')

namespace IsFocus

theorem rowIndices_eq {root : Row} {p : RowIndices} {f : FocusRow} (h : IsFocus root p f) :
    f.rowIndices = p := by
  cases h <;> rfl

theorem rowAt_eq {root : Row} {p : RowIndices} {f : FocusRow} (h : IsFocus root p f) :
    rowAt root p = some f.row := by
  induction h with
  | root => rfl
  | @child p p' f i j v cells w c hf hi hj hp ih =>
    subst hp
    rw [rowAt_append, ih]
    simp only [Option.bind_some]
    exact rowAt_cons.2 ⟨v, cells, w, c, hi, getLinear_some hj, rfl⟩

theorem nil_inv {root : Row} {f : FocusRow} (h : IsFocus root [] f) : f = .root root [] := by
  generalize hp : ([] : RowIndices) = p at h
  cases h with
  | root => rfl
  | child _ _ _ h => rw [← hp] at h; simp at h

theorem snoc_inv {root : Row} {p : RowIndices} {i j : Nat} {f : FocusRow}
    (h : IsFocus root (p ++ [(i, j)]) f) :
    ∃ g v cells w c, IsFocus root p g ∧ g.row[i]? = some (.container v cells w) ∧
      GridVec.getLinear ⟨cells, w⟩ j = .ok (some c) ∧
      f = .child c (.container v cells w) (g.setIndices []) i (p ++ [(i, j)]) := by
  generalize hp : p ++ [(i, j)] = p' at h
  cases h with
  | root => simp at hp
  | @child q _ g i' j' v cells w c hf hi hj h =>
    rw [← hp] at h
    obtain ⟨h1, h2⟩ := List.append_inj' h rfl
    simp only [List.cons.injEq, Prod.mk.injEq, and_true] at h2
    obtain ⟨rfl, rfl⟩ := h2
    subst h1
    exact ⟨g, v, cells, w, c, hf, hi, hj, rfl⟩

theorem unique {root : Row} {p : RowIndices} {f g : FocusRow} (h : IsFocus root p f)
    (h' : IsFocus root p g) : f = g := by
  induction h generalizing g with
  | root => rw [h'.nil_inv]
  | @child p p' f i j v cells w c hf hi hj hp ih =>
    subst hp
    obtain ⟨g2, v2, cells2, w2, c2, hg, hi2, hj2, rfl⟩ := h'.snoc_inv
    have := ih hg; subst this
    rw [hi] at hi2; cases hi2
    rw [hj] at hj2; cases hj2
    rfl

theorem setIndices_setIndices (f : FocusRow) (a b : RowIndices) :
    (f.setIndices a).setIndices b = f.setIndices b := by cases f <;> rfl

theorem setIndices_row (f : FocusRow) (a : RowIndices) : (f.setIndices a).row = f.row := by
  cases f <;> rfl

theorem setIndices_self {f : FocusRow} {p : RowIndices} (h : f.rowIndices = p) :
    f.setIndices p = f := by
  subst h; cases f <;> rfl

/-- The parent of the focus of `p ++ [(i, j)]` is the container at index `i` in the focus of
`p`. -/
theorem parent_snoc {root : Row} {p : RowIndices} {i j : Nat} {f : FocusRow}
    (h : IsFocus root (p ++ [(i, j)]) f) :
    ∃ g v cells w, IsFocus root p g ∧ g.row[i]? = some (.container v cells w) ∧
      cells[j]? = some f.row ∧ GridVec.getLinear ⟨cells, w⟩ j = .ok (some f.row) ∧
      f.parent = some ⟨.container v cells w, g, i⟩ := by
  obtain ⟨g, v, cells, w, c, hg, hi, hj, rfl⟩ := h.snoc_inv
  refine ⟨g, v, cells, w, hg, hi, getLinear_some hj, hj, ?_⟩
  simp only [FocusRow.parent, List.dropLast_concat, setIndices_setIndices,
    setIndices_self hg.rowIndices_eq]

theorem parent_nil {root : Row} {f : FocusRow} (h : IsFocus root [] f) : f.parent = none := by
  rw [h.nil_inv]; rfl

theorem indexInParent_snoc {cfg : Cfg} {root : Row} {p : RowIndices} {i j : Nat} {f : FocusRow}
    (h : IsFocus root (p ++ [(i, j)]) f) : f.indexInParent cfg = .ok (some j) := by
  unfold FocusRow.indexInParent
  rw [h.rowIndices_eq, usub_of_le (by simp)]
  simp

/-- `childAt` of a row focus followed by `childAt` of the node focus. -/
theorem childAt_childAt {root : Row} {p : RowIndices} {f : FocusRow} {i j : Nat} {v : Variant}
    {cells : List Row} {w : Nat} {c : Row} (hf : IsFocus root p f)
    (hi : f.row[i]? = some (.container v cells w))
    (hj : GridVec.getLinear ⟨cells, w⟩ j = .ok (some c)) :
    ∃ f', FocusNode.childAt ⟨.container v cells w, f, i⟩ j = .ok (some f') ∧
      IsFocus root (p ++ [(i, j)]) f' ∧ f'.row = c := by
  refine ⟨.child c (.container v cells w) (f.setIndices []) i (p ++ [(i, j)]), ?_,
    .child hf hi hj rfl, rfl⟩
  simp [FocusNode.childAt, hj, hf.rowIndices_eq]

theorem childAt_inv {root : Row} {p : RowIndices} {f f' : FocusRow} {i j : Nat} {n : Node}
    (hf : IsFocus root p f) (hn : f.row[i]? = some n)
    (h : FocusNode.childAt ⟨n, f, i⟩ j = .ok (some f')) : IsFocus root (p ++ [(i, j)]) f' := by
  cases n with
  | symbol s => simp [FocusNode.childAt] at h
  | container v cells w =>
    simp only [FocusNode.childAt] at h
    obtain ⟨x, hx, h⟩ := M.bind_eq_ok.1 h
    cases x with
    | none => simp at h
    | some c =>
      simp only [Except.ok.injEq, Option.some.injEq] at h
      subst h
      rw [hf.rowIndices_eq]
      exact .child hf hn hx rfl

theorem walkDown_sound {root : Row} {p q : RowIndices} {f f' : FocusRow} (hf : IsFocus root p f)
    (h : f.walkDown q = .ok f') : IsFocus root (p ++ q) f' := by
  induction q generalizing p f with
  | nil => simp only [FocusRow.walkDown, Except.ok.injEq] at h; subst h; simpa using hf
  | cons ix q ih =>
    obtain ⟨i, j⟩ := ix
    simp only [FocusRow.walkDown] at h
    obtain ⟨n, hn, h1⟩ := M.bind_eq_ok.1 h
    obtain ⟨c, hc, h2⟩ := M.bind_eq_ok.1 h1
    obtain ⟨c2, hc2, h3⟩ := M.bind_eq_ok.1 h2
    clear h h1 h2
    rw [mexpect_eq_ok] at hn hc2
    subst hc2
    unfold FocusRow.childAt at hn
    split at hn
    · cases hn
    · rename_i m hm
      simp only [Option.some.injEq] at hn
      subst hn
      have := ih (childAt_inv hf hm hc) h3
      simpa using this

theorem walkDown_complete {root : Row} {p q : RowIndices} {f f' : FocusRow}
    (hf : IsFocus root p f) (h : IsFocus root (p ++ q) f') : f.walkDown q = .ok f' := by
  generalize hn : q.length = n
  induction n generalizing p q f with
  | zero =>
    have : q = [] := List.length_eq_zero_iff.1 hn
    subst this
    simp only [List.append_nil] at h
    rw [hf.unique h]; rfl
  | succ n ih =>
    cases q with
    | nil => simp at hn
    | cons ix q =>
      obtain ⟨i, j⟩ := ix
      have key : ∃ g, IsFocus root (p ++ [(i, j)]) g := by
        clear ih hn
        have h0 : p ++ (i, j) :: q = (p ++ [(i, j)]) ++ q := by simp
        rw [h0] at h
        clear h0 hf
        induction q using List.reverseRecOn generalizing f' with
        | nil => simp only [List.append_nil] at h; exact ⟨f', h⟩
        | append_singleton q ix ih =>
          rw [← List.append_assoc] at h
          obtain ⟨g, _, _, _, _, hg, _⟩ := h.snoc_inv
          exact ih hg
      obtain ⟨g, hg⟩ := key
      obtain ⟨f2, v, cells, w, c, hf2, hi, hj, rfl⟩ := hg.snoc_inv
      have := hf2.unique hf; subst this
      have hrec := ih hg (q := q) (by simpa using h) (by simpa using hn)
      simp only [FocusRow.walkDown, FocusRow.childAt, hi, mexpect_some, M.ok_bind,
        FocusNode.childAt, hj, hf.rowIndices_eq]
      exact hrec

theorem exists_of_wf {root r : Row} {p : RowIndices} (hwf : rowWf root = true)
    (h : rowAt root p = some r) : ∃ f, IsFocus root p f ∧ f.row = r := by
  induction p using List.reverseRecOn generalizing r with
  | nil => simp at h; subst h; exact ⟨_, .root, rfl⟩
  | append_singleton p ix ih =>
    obtain ⟨i, j⟩ := ix
    rw [rowAt_append] at h
    obtain ⟨r0, h0, h1⟩ := Option.bind_eq_some_iff.1 h
    obtain ⟨f, hf, hfr⟩ := ih h0
    obtain ⟨v, cells, w, c, hi, hc, h2⟩ := rowAt_cons.1 h1
    simp only [rowAt_nil, Option.some.injEq] at h2
    subst h2 hfr
    have hn := wf_container.1 (rowWf_iff.1 (rowAt_wf hwf h0) _ (List.mem_of_getElem? hi))
    obtain ⟨hw, hm, -⟩ := shapeOk_pos hn.1
    have hj := getLinear_wf hw hm j
    rw [hc] at hj
    exact ⟨_, .child hf hi hj rfl, rfl⟩

theorem fromRoot {root : Row} : IsFocus root [] (FocusRow.fromRoot root) := .root

theorem walkDown_iff {root : Row} {p : RowIndices} {f : FocusRow} :
    (FocusRow.fromRoot root).walkDown p = .ok f ↔ IsFocus root p f :=
  ⟨fun h => by simpa using walkDown_sound fromRoot h,
    fun h => walkDown_complete fromRoot (by simpa using h)⟩

end IsFocus

/-! ## Positions and ranges of a tree -/

/-- A position of the tree: its focus belongs to the tree and the offset is inside the row. -/
def Position.In (root : Row) (p : Position) : Prop :=
  (∃ q, IsFocus root q p.focus) ∧ p.offset ≤ p.focus.row.length

/-- A range of the tree. -/
def RowRange.In (root : Row) (r : RowRange) : Prop :=
  (∃ q, IsFocus root q r.focus) ∧ r.start ≤ r.focus.row.length ∧ r.stop ≤ r.focus.row.length

theorem Position.new_eq_ok {f : FocusRow} {o : Nat} {p : Position} :
    Position.new f o = .ok p ↔ o ≤ f.row.length ∧ p = ⟨f, o⟩ := by
  unfold Position.new FocusRow.len
  split
  · simp_all [eq_comm]
  · rename_i h
    exact ⟨fun h => (by cases h), fun h' => absurd h'.1 h⟩

theorem Position.new_ok {f : FocusRow} {o : Nat} (h : o ≤ f.row.length) :
    Position.new f o = .ok ⟨f, o⟩ := Position.new_eq_ok.2 ⟨h, rfl⟩

theorem RowRange.new_ok {f : FocusRow} {a b : Nat} (h : a ≤ f.row.length)
    (h' : b ≤ f.row.length) : RowRange.new f a b = .ok ⟨f, a, b⟩ := by
  simp [RowRange.new, FocusRow.len, h, h']

theorem RowRange.new_eq_ok {f : FocusRow} {a b : Nat} {r : RowRange} :
    RowRange.new f a b = .ok r ↔ (a ≤ f.row.length ∧ b ≤ f.row.length) ∧ r = ⟨f, a, b⟩ := by
  constructor
  · intro h
    unfold RowRange.new FocusRow.len at h
    split at h
    · split at h
      · rename_i h1 h2; cases h; exact ⟨⟨h1, h2⟩, rfl⟩
      · cases h
    · cases h
  · rintro ⟨⟨h1, h2⟩, rfl⟩; exact RowRange.new_ok h1 h2

theorem Position.fromMinimal_eq_ok {root : Row} {m : MinPos} {p : Position} :
    Position.fromMinimal (.fromRoot root) m = .ok p ↔
      IsFocus root m.rowIndices p.focus ∧ p.offset = m.offset ∧
        m.offset ≤ p.focus.row.length := by
  unfold Position.fromMinimal
  rw [M.bind_eq_ok]
  constructor
  · rintro ⟨f, hf, h⟩
    obtain ⟨h1, rfl⟩ := Position.new_eq_ok.1 h
    exact ⟨IsFocus.walkDown_iff.1 hf, rfl, h1⟩
  · rintro ⟨h1, h2, h3⟩
    obtain ⟨f, o⟩ := p
    simp only at h1 h2 h3
    subst h2
    exact ⟨f, IsFocus.walkDown_iff.2 h1, Position.new_ok h3⟩

theorem Position.In.valid {root : Row} {p : Position} (h : p.In root) :
    ValidPos root p.toMinimal := by
  obtain ⟨⟨q, hq⟩, ho⟩ := h
  exact ⟨p.focus.row, by simpa [Position.toMinimal, hq.rowIndices_eq] using hq.rowAt_eq, ho⟩

theorem Position.fromMinimal_valid {root : Row} {m : MinPos} (hwf : rowWf root = true)
    (h : ValidPos root m) : ∃ p, Position.fromMinimal (.fromRoot root) m = .ok p ∧
      p.In root ∧ p.toMinimal = m ∧ IsFocus root m.rowIndices p.focus := by
  obtain ⟨r, hr, ho⟩ := h
  obtain ⟨f, hf, rfl⟩ := IsFocus.exists_of_wf hwf hr
  refine ⟨⟨f, m.offset⟩, Position.fromMinimal_eq_ok.2 ⟨hf, rfl, ho⟩, ⟨⟨_, hf⟩, ho⟩, ?_, hf⟩
  simp [Position.toMinimal, hf.rowIndices_eq]

theorem Position.fromMinimal_sound {root : Row} {m : MinPos} {p : Position}
    (h : Position.fromMinimal (.fromRoot root) m = .ok p) :
    p.In root ∧ p.toMinimal = m ∧ IsFocus root m.rowIndices p.focus := by
  obtain ⟨h1, h2, h3⟩ := Position.fromMinimal_eq_ok.1 h
  refine ⟨⟨⟨_, h1⟩, by omega⟩, ?_, h1⟩
  simp [Position.toMinimal, h1.rowIndices_eq, h2]

theorem Position.In.ext {root : Row} {p q : Position} (hp : p.In root) (hq : q.In root)
    (h : p.toMinimal = q.toMinimal) : p = q := by
  obtain ⟨⟨a, ha⟩, -⟩ := hp
  obtain ⟨⟨b, hb⟩, -⟩ := hq
  obtain ⟨f, o⟩ := p
  obtain ⟨g, o'⟩ := q
  simp only [Position.toMinimal, MinPos.mk.injEq] at h ha hb
  rw [ha.rowIndices_eq, hb.rowIndices_eq] at h
  obtain ⟨rfl, rfl⟩ := h
  rw [ha.unique hb]

end Aftermath

import Verif.Spec.Move
import Verif.Proof.Move
import Verif.Proof.Range
import Mathlib.Data.List.Chain

/-! # One step to the right, as a relation, and the list of all positions -/

namespace Aftermath

/-- Neighbouring positions in reading order. -/
inductive Step : Row → MinPos → MinPos → Prop
  | sym {r : Row} {o : Nat} {s : Str} (h : r[o]? = some (.symbol s)) : Step r ⟨[], o⟩ ⟨[], o + 1⟩
  | enter {r : Row} {o : Nat} {v : Variant} {cells : List Row} {w : Nat}
      (h : r[o]? = some (.container v cells w)) : Step r ⟨[], o⟩ ⟨[(o, 0)], 0⟩
  | next {r : Row} {i j : Nat} {v : Variant} {cells : List Row} {w : Nat} {c c' : Row}
      (h : r[i]? = some (.container v cells w)) (hc : cells[j]? = some c)
      (hc' : cells[j + 1]? = some c') : Step r ⟨[(i, j)], c.length⟩ ⟨[(i, j + 1)], 0⟩
  | leave {r : Row} {i j : Nat} {v : Variant} {cells : List Row} {w : Nat} {c : Row}
      (h : r[i]? = some (.container v cells w)) (hc : cells[j]? = some c)
      (hc' : cells.length = j + 1) : Step r ⟨[(i, j)], c.length⟩ ⟨[], i + 1⟩
  | under {r : Row} {i j : Nat} {v : Variant} {cells : List Row} {w : Nat} {c : Row}
      {a b : MinPos} (h : r[i]? = some (.container v cells w)) (hc : cells[j]? = some c)
      (hs : Step c a b) : Step r (a.under (i, j)) (b.under (i, j))

theorem rowPositions_ne_nil (i : Nat) (r : List Node) : rowPositions i r ≠ [] := by
  cases r <;> simp [rowPositions]

theorem rowPositions_head (i : Nat) (r : List Node) :
    (rowPositions i r).head? = some ⟨[], i⟩ := by
  cases r <;> simp [rowPositions]

theorem rowPositions_last (i : Nat) (r : List Node) :
    (rowPositions i r).getLast? = some ⟨[], i + r.length⟩ := by
  induction r generalizing i with
  | nil => simp [rowPositions]
  | cons n ns ih =>
    simp only [rowPositions]
    rw [← List.cons_append, List.getLast?_append, ih (i + 1)]
    simp only [Option.some_or, List.length_cons, Option.some.injEq, MinPos.mk.injEq, true_and]
    omega

theorem cellsPositions_head (i j : Nat) (c : List Node) (cs : List (List Node)) :
    (cellsPositions i j (c :: cs)).head? = some ⟨[(i, j)], 0⟩ := by
  simp only [cellsPositions]
  rw [List.head?_append, List.head?_map, rowPositions_head]
  rfl

theorem isChain_map_under {r c : Row} {i j : Nat} {v : Variant} {cells : List Row} {w : Nat}
    (h : r[i]? = some (.container v cells w)) (hc : cells[j]? = some c) {l : List MinPos}
    (hl : l.IsChain (Step c)) : (l.map (MinPos.under (i, j))).IsChain (Step r) := by
  rw [List.isChain_map]
  exact hl.imp fun a b hs => Step.under h hc hs

mutual
theorem rowPositions_chain (r : Row) (i : Nat) (ns : List Node) (hwf : rowWf ns = true)
    (hr : ∀ k, ns[k]? = r[i + k]?) : (rowPositions i ns).IsChain (Step r) := by
  cases ns with
  | nil => simp [rowPositions]
  | cons n ns =>
    simp only [rowPositions]
    have hn : r[i]? = some n := by have := hr 0; simpa using this.symm
    simp only [rowWf, Bool.and_eq_true] at hwf
    have h1 := rowPositions_chain r (i + 1) ns hwf.2 (fun k => by
      have := hr (k + 1)
      rw [show i + (k + 1) = i + 1 + k by omega] at this
      simpa using this)
    have h2 := nodePositions_chain r i n hwf.1 hn
    obtain ⟨tl, htl⟩ : ∃ tl, rowPositions (i + 1) ns = ⟨[], i + 1⟩ :: tl := by
      cases ns <;> simp [rowPositions]
    rw [htl] at h1 ⊢
    rw [show (⟨[], i⟩ : MinPos) :: (nodePositions i n ++ ⟨[], i + 1⟩ :: tl) =
      (⟨[], i⟩ :: nodePositions i n) ++ ⟨[], i + 1⟩ :: tl from rfl, List.isChain_split]
    exact ⟨h2, h1⟩
  termination_by structural ns

theorem nodePositions_chain (r : Row) (i : Nat) (n : Node) (hwf : n.wf = true)
    (hn : r[i]? = some n) :
    List.IsChain (Step r) ((⟨[], i⟩ :: nodePositions i n) ++ [⟨[], i + 1⟩]) := by
  cases n with
  | symbol s =>
    simp only [nodePositions, List.cons_append, List.nil_append]
    exact List.isChain_pair.2 (Step.sym hn)
  | container v cells w =>
    simp only [nodePositions]
    have hpos := (shapeOk_pos (wf_container.1 hwf).1).2.2
    have hcw : cellsWf cells = true := cellsWf_iff.2 (wf_container.1 hwf).2
    have h1 := cellsPositions_chain r i 0 cells hcw hn (by simp)
    cases hcells : cells with
    | nil => rw [hcells] at hpos; simp at hpos
    | cons c cs =>
      obtain ⟨tl, htl⟩ : ∃ tl, cellsPositions i 0 (c :: cs) = ⟨[(i, 0)], 0⟩ :: tl := by
        have := cellsPositions_head i 0 c cs
        cases h : cellsPositions i 0 (c :: cs) with
        | nil => rw [h] at this; simp at this
        | cons x tl => rw [h] at this; simp at this; exact ⟨tl, by rw [this]⟩
      rw [hcells] at h1
      have h1 := h1 (by simp)
      rw [htl] at h1 ⊢
      exact List.isChain_cons_cons.2 ⟨Step.enter hn, h1⟩
  termination_by structural n

theorem cellsPositions_chain (r : Row) (i j : Nat) (cells : List (List Node))
    {v : Variant} {all : List Row} {w : Nat} (hwf : cellsWf cells = true)
    (hn : r[i]? = some (.container v all w)) (hall : ∀ k, cells[k]? = all[j + k]?) :
    cells ≠ [] → List.IsChain (Step r) (cellsPositions i j cells ++ [⟨[], i + 1⟩]) := by
  cases cells with
  | nil => intro h; exact absurd rfl h
  | cons c cs =>
    intro _
    simp only [cellsWf, Bool.and_eq_true] at hwf
    have hc : all[j]? = some c := by have := hall 0; simpa using this.symm
    have h1 := isChain_map_under hn hc (rowPositions_chain c 0 c hwf.1 (by simp))
    have hlast : ((rowPositions 0 c).map (MinPos.under (i, j))).getLast? =
        some ⟨[(i, j)], c.length⟩ := by
      rw [List.getLast?_map, rowPositions_last]
      simp [MinPos.under]
    have hall' : ∀ k, cs[k]? = all[j + 1 + k]? := fun k => by
      have := hall (k + 1)
      rw [show j + (k + 1) = j + 1 + k by omega] at this
      simpa using this
    simp only [cellsPositions, List.append_assoc]
    have h2 := cellsPositions_chain r i (j + 1) cs hwf.2 hn hall'
    rw [List.isChain_append]
    cases hcs : cs with
    | nil =>
      subst hcs
      refine ⟨h1, by simp [cellsPositions], ?_⟩
      intro x hx y hy
      rw [hlast] at hx
      simp only [Option.mem_def, Option.some.injEq] at hx
      simp only [cellsPositions, List.nil_append, List.head?_cons, Option.mem_def,
        Option.some.injEq] at hy
      subst hx hy
      refine Step.leave hn hc ?_
      have h3 : all[j + 1]? = none := by have := hall' 0; simpa using this.symm
      have := List.getElem?_eq_none_iff.1 h3
      have := (List.getElem?_eq_some_iff.1 hc).1
      omega
    | cons c' cs' =>
      rw [← hcs]
      refine ⟨h1, h2 (by rw [hcs]; simp), ?_⟩
      intro x hx y hy
      rw [hlast] at hx
      simp only [Option.mem_def, Option.some.injEq] at hx
      rw [hcs, List.head?_append, cellsPositions_head] at hy
      simp only [Option.some_or, Option.mem_def, Option.some.injEq] at hy
      subst hx hy
      refine Step.next hn hc (c' := c') ?_
      have := hall' 0
      rw [hcs] at this
      simpa using this.symm
  termination_by structural cells
end

theorem positions_chain {root : Row} (hwf : rowWf root = true) :
    (positions root).IsChain (Step root) :=
  rowPositions_chain root 0 root hwf (by simp)

/-! ## The model's Right and Left follow the relation -/

/-- Put a whole path in front of a position. -/
def MinPos.underPath (p : RowIndices) (a : MinPos) : MinPos := ⟨p ++ a.rowIndices, a.offset⟩

theorem move_right_step {root : Row} (hwf : rowWf root = true) {c : Row} {a b : MinPos}
    (hs : Step c a b) {p : RowIndices} {f fa : FocusRow} (cfg : Cfg)
    (hf : IsFocus root p f) (hc : f.row = c)
    (hfa : IsFocus root (a.underPath p).rowIndices fa) :
    ∃ fb, moveCaretInternal cfg ⟨fa, a.offset⟩ .right = .ok (some ⟨fb, b.offset⟩) ∧
      IsFocus root (b.underPath p).rowIndices fb ∧ b.offset ≤ fb.row.length := by
  induction hs generalizing p f fa with
  | @sym r o s h =>
    subst hc
    simp only [MinPos.underPath, List.append_nil] at hfa ⊢
    have := hfa.unique hf; subst this
    exact ⟨fa, move_right_symbol h, hfa, (List.getElem?_eq_some_iff.1 h).1⟩
  | @enter r o v cells w h =>
    subst hc
    simp only [MinPos.underPath, List.append_nil] at hfa ⊢
    have := hfa.unique hf; subst this
    obtain ⟨f', h1, h2, -⟩ := move_right_enter hwf hfa (cfg := cfg) h
    exact ⟨f', h1, h2, Nat.zero_le _⟩
  | @next r i j v cells w c c' h hc0 hc' =>
    subst hc
    simp only [MinPos.underPath] at hfa ⊢
    have hr : c = fa.row := by
      obtain ⟨g, v', cells', w', hg, hi, hcell, -, -⟩ := hfa.parent_snoc
      have := hg.unique hf; subst this
      rw [h] at hi; cases hi
      rw [hc0] at hcell; cases hcell; rfl
    subst hr
    obtain ⟨f', h1, h2, -⟩ := move_right_next hwf (cfg := cfg) hfa hf h hc'
    exact ⟨f', h1, h2, Nat.zero_le _⟩
  | @leave r i j v cells w c h hc0 hc' =>
    subst hc
    simp only [MinPos.underPath, List.append_nil] at hfa ⊢
    have hr : c = fa.row := by
      obtain ⟨g, v', cells', w', hg, hi, hcell, -, -⟩ := hfa.parent_snoc
      have := hg.unique hf; subst this
      rw [h] at hi; cases hi
      rw [hc0] at hcell; cases hcell; rfl
    subst hr
    exact ⟨f, move_right_leave hwf (cfg := cfg) hfa hf h (by omega), hf,
      (List.getElem?_eq_some_iff.1 h).1⟩
  | @under r i j v cells w c a b h hc0 hs ih =>
    subst hc
    obtain ⟨f', -, hf', hrow⟩ := hf.child_ok hwf h hc0
    have e : ∀ x : MinPos, ((x.under (i, j)).underPath p).rowIndices =
        (x.underPath (p ++ [(i, j)])).rowIndices := by
      intro x; simp [MinPos.underPath, MinPos.under]
    rw [e] at hfa
    obtain ⟨fb, h1, h2, h3⟩ := ih hf' hrow hfa
    exact ⟨fb, h1, by rw [e]; exact h2, h3⟩

theorem move_left_step {root : Row} (hwf : rowWf root = true) {c : Row} {a b : MinPos}
    (hs : Step c a b) {p : RowIndices} {f fb : FocusRow} (cfg : Cfg)
    (hcfg : cfg.checks = false → rowFits cfg.bits root = true)
    (hf : IsFocus root p f) (hc : f.row = c)
    (hfb : IsFocus root (b.underPath p).rowIndices fb) :
    (cfg.checks = true ∧ AtFirstCellStart b ∧
      moveCaretInternal cfg ⟨fb, b.offset⟩ .left = .error .overflow) ∨
    ((cfg.checks = true → ¬ AtFirstCellStart b) ∧
      ∃ fa, moveCaretInternal cfg ⟨fb, b.offset⟩ .left = .ok (some ⟨fa, a.offset⟩) ∧
      IsFocus root (a.underPath p).rowIndices fa ∧ a.offset ≤ fa.row.length) := by
  have nfc : ∀ o, ¬ AtFirstCellStart ⟨[], o⟩ := by
    rintro o ⟨-, p, i, h⟩; simp at h
  induction hs generalizing p f fb with
  | @sym r o s h =>
    subst hc
    simp only [MinPos.underPath, List.append_nil] at hfb ⊢
    have := hfb.unique hf; subst this
    have hlt := (List.getElem?_eq_some_iff.1 h).1
    exact Or.inr ⟨fun _ => nfc _, fb, move_left_symbol h, hfb, by show o ≤ _; omega⟩
  | @enter r o v cells w h =>
    subst hc
    simp only [MinPos.underPath, List.append_nil] at hfb ⊢
    have hlt := (List.getElem?_eq_some_iff.1 h).1
    cases hck : cfg.checks with
    | true =>
      exact Or.inl ⟨rfl, ⟨rfl, [], o, rfl⟩, move_left_leave_checked hck hfb⟩
    | false =>
      exact Or.inr ⟨fun h => (by cases h), f,
        move_left_leave_unchecked hwf hck (hcfg hck) hfb hf, hf, by show o ≤ _; omega⟩
  | @next r i j v cells w c c' h hc0 hc' =>
    subst hc
    simp only [MinPos.underPath] at hfb ⊢
    obtain ⟨f', h1, h2, h3⟩ := move_left_next hwf (cfg := cfg) hfb hf h hc0
    refine Or.inr ⟨fun _ => ?_, f', ?_, h2, by rw [h3]⟩
    · rintro ⟨-, q, k, hq⟩
      rw [show [(i, j + 1)] = [] ++ [(i, j + 1)] from rfl] at hq
      have := (List.append_inj' hq rfl).2
      simp at this
    · rw [h1, h3]
  | @leave r i j v cells w c h hc0 hc' =>
    subst hc
    simp only [MinPos.underPath, List.append_nil] at hfb ⊢
    have := hfb.unique hf; subst this
    obtain ⟨f', h1, h2, h3⟩ := move_left_enter hwf hfb (cfg := cfg) h
    have hj : cells.length - 1 = j := by omega
    rw [hj] at h2 h3
    rw [hc0] at h3; cases h3
    exact Or.inr ⟨fun _ => nfc _, f', h1, h2, Nat.le_refl _⟩
  | @under r i j v cells w c a b h hc0 hs ih =>
    subst hc
    obtain ⟨f', -, hf', hrow⟩ := hf.child_ok hwf h hc0
    have e : ∀ x : MinPos, ((x.under (i, j)).underPath p).rowIndices =
        (x.underPath (p ++ [(i, j)])).rowIndices := by
      intro x; simp [MinPos.underPath, MinPos.under]
    rw [e] at hfb
    have hfc : AtFirstCellStart (b.under (i, j)) → AtFirstCellStart b ∨ b = ⟨[], 0⟩ := by
      rintro ⟨h0, q, k, hq⟩
      simp only [MinPos.under] at h0 hq
      cases b with
      | mk bi bo =>
        simp only at h0 hq
        subst h0
        cases bi using List.reverseRecOn with
        | nil => right; rfl
        | append_singleton bi ix =>
          left
          refine ⟨rfl, bi, k, ?_⟩
          rw [← List.cons_append] at hq
          have := (List.append_inj' hq rfl).2
          rw [this]
    have hb0 : b ≠ ⟨[], 0⟩ := by
      intro hb; subst hb
      cases hs
    have hfc' : AtFirstCellStart b → AtFirstCellStart (b.under (i, j)) := by
      rintro ⟨h0, q, k, hq⟩
      exact ⟨h0, (i, j) :: q, k, by simp [MinPos.under, hq]⟩
    rcases ih hf' hrow hfb with ⟨h1, h2, h3⟩ | ⟨h0, fa, h1, h2, h3⟩
    · exact Or.inl ⟨h1, hfc' h2, h3⟩
    · refine Or.inr ⟨fun hck hbad => ?_, fa, h1, by rw [e]; exact h2, h3⟩
      rcases hfc hbad with hx | hx
      · exact h0 hck hx
      · exact hb0 hx

theorem Step.not_origin {r : Row} {a b : MinPos} (h : Step r a b) (hb : b.rowIndices = []) :
    b.offset ≠ 0 := by
  cases h <;> simp_all [MinPos.under]

/-- A step that arrives at the start of a first cell has just entered the container. -/
theorem Step.firstCell {r : Row} {a b : MinPos} (h : Step r a b) :
    AtFirstCellStart b ↔ b = ⟨a.rowIndices ++ [(a.offset, 0)], 0⟩ := by
  constructor
  · induction h with
    | sym h => rintro ⟨h, -⟩; simp at h
    | enter h => intro _; rfl
    | next h hc hc' =>
      rintro ⟨-, p, k, h⟩
      have := (List.append_inj' (s₁ := []) h rfl).2
      simp at this
    | leave h hc hc' => rintro ⟨h, -⟩; simp at h
    | @under r i j v cells w c a b h hc hs ih =>
      rintro ⟨h0, p, k, h1⟩
      have h0 : b.offset = 0 := h0
      have h1 : (i, j) :: b.rowIndices = p ++ [(k, 0)] := h1
      cases p with
      | nil =>
        have : b.rowIndices = [] := by simpa using (List.cons.inj h1).2
        exact absurd h0 (hs.not_origin this)
      | cons x p =>
        have := ih ⟨h0, p, k, (List.cons.inj h1).2⟩
        subst this
        rfl
  · rintro rfl
    exact ⟨rfl, _, _, rfl⟩

end Aftermath

import Verif.Spec.Display
import Verif.Proof.Json
import Verif.Proof.Basic

/-! # Reading printed formulas back -/

namespace Aftermath

/-- Escaped text ends at the first unescaped quote. -/
theorem printEscaped_inj : ∀ {s s' r r' : Str},
    printEscaped s ++ '"' :: r = printEscaped s' ++ '"' :: r' → s = s' ∧ r = r'
  | [], [], _, _, h => by simpa [printEscaped] using h
  | [], c :: cs, r, r', h => by
    exfalso
    simp only [printEscaped, List.flatMap_nil, List.nil_append, List.flatMap_cons, escapeQuotes] at h
    split at h
    · simp at h
    · split at h
      · simp at h
      · simp only [List.cons_append, List.cons.injEq] at h
        exact absurd h.1.symm (by assumption)
  | c :: cs, [], r, r', h => by
    exfalso
    simp only [printEscaped, List.flatMap_nil, List.nil_append, List.flatMap_cons, escapeQuotes] at h
    split at h
    · simp at h
    · split at h
      · simp at h
      · simp only [List.cons_append, List.cons.injEq] at h
        exact absurd h.1 (by assumption)
  | c :: cs, c' :: cs', r, r', h => by
    have hc : c = c' ∧ printEscaped cs ++ '"' :: r = printEscaped cs' ++ '"' :: r' := by
      simp only [printEscaped, List.flatMap_cons, escapeQuotes] at h ⊢
      by_cases h1 : c = '"' <;> by_cases h2 : c = '\\' <;> by_cases h3 : c' = '"' <;>
        by_cases h4 : c' = '\\' <;> simp_all
      all_goals exact absurd h.1.symm h4
    obtain ⟨rfl, h'⟩ := hc
    obtain ⟨rfl, rfl⟩ := printEscaped_inj h'
    exact ⟨rfl, rfl⟩

theorem natDigits_inj {n n' : Nat} {r r' : Str} (hr : NoDigit r) (hr' : NoDigit r')
    (h : natDigits n ++ r = natDigits n' ++ r') : n = n' ∧ r = r' := by
  have h1 := natDigits_split (n := n) hr
  rw [h, (natDigits_split hr').1, (natDigits_split hr').2] at h1
  have h2 := decimal_natDigits n
  rw [← h1.1, decimal_natDigits] at h2
  exact ⟨h2.symm, h1.2.symm⟩

theorem noDigit_cons {c : Char} {s : Str} (h : isDigit c = false) : NoDigit (c :: s) := by
  intro c' cs he
  cases he
  exact h

/-- What can follow the printed cells of a grid or the printed nodes of a row. -/
theorem noDigit_cells {cells : List Row} {a r : Str} (h : cellsDisplay cells = .ok a) :
    NoDigit (a ++ ')' :: r) := by
  cases cells with
  | nil => rw [cellsDisplay] at h; cases h; exact noDigit_cons (by decide)
  | cons c cs =>
    rw [cellsDisplay] at h
    obtain ⟨x, -, h1⟩ := M.bind_eq_ok.1 h
    obtain ⟨y, -, h2⟩ := M.bind_eq_ok.1 h1
    cases h2
    exact noDigit_cons (by decide)

theorem printSize_inj {n w n' w' : Nat} {a a' r r' : Str} (h : printSize n w = .ok a)
    (h' : printSize n' w' = .ok a') (hr : NoDigit r) (hr' : NoDigit r') (he : a ++ r = a' ++ r') :
    w = w' ∧ r = r' := by
  unfold printSize at h h'
  split at h
  · cases h
  · split at h'
    · cases h'
    · cases h
      cases h'
      simp only [List.append_assoc, List.cons_append] at he
      obtain ⟨h1, h2⟩ := natDigits_inj (noDigit_cons (by decide)) (noDigit_cons (by decide)) he
      simp only [List.cons.injEq, true_and] at h2
      exact ⟨h1, (natDigits_inj hr hr' h2).2⟩

theorem variantDisplay_inj {v v' : Variant} {r r' : Str}
    (h : v.display ++ ' ' :: r = v'.display ++ ' ' :: r') : v = v' ∧ r = r' := by
  cases v <;> cases v' <;> simp [Variant.display] at h ⊢ <;> exact h

mutual
theorem Node.display_inj : ∀ {n n' : Node} {a a' r r' : Str}, n.display = .ok a →
    n'.display = .ok a' → a ++ r = a' ++ r' → n = n' ∧ r = r'
  | .symbol s, .symbol s', a, a', r, r', h, h', he => by
    simp only [Node.display] at h h'
    cases h; cases h'
    simp only [List.cons_append, List.append_assoc, List.cons.injEq, true_and,
      List.nil_append] at he
    obtain ⟨rfl, rfl⟩ := printEscaped_inj he
    exact ⟨rfl, rfl⟩
  | .symbol s, .container v cells w, a, a', r, r', h, h', he => by
    exfalso
    simp only [Node.display] at h h'
    obtain ⟨x, -, h1⟩ := M.bind_eq_ok.1 h'
    obtain ⟨y, -, h2⟩ := M.bind_eq_ok.1 h1
    cases h; cases h2
    simp at he
  | .container v cells w, .symbol s, a, a', r, r', h, h', he => by
    exfalso
    simp only [Node.display] at h h'
    obtain ⟨x, -, h1⟩ := M.bind_eq_ok.1 h
    obtain ⟨y, -, h2⟩ := M.bind_eq_ok.1 h1
    cases h'; cases h2
    simp at he
  | .container v cells w, .container v' cells' w', a, a', r, r', h, h', he => by
    simp only [Node.display] at h h'
    obtain ⟨x, hx, h1⟩ := M.bind_eq_ok.1 h
    obtain ⟨y, hy, h2⟩ := M.bind_eq_ok.1 h1
    obtain ⟨x', hx', h1'⟩ := M.bind_eq_ok.1 h'
    obtain ⟨y', hy', h2'⟩ := M.bind_eq_ok.1 h1'
    cases h2; cases h2'
    simp only [List.cons_append, List.append_assoc, List.cons.injEq, true_and,
      List.nil_append] at he
    obtain ⟨rfl, he1⟩ := variantDisplay_inj he
    obtain ⟨rfl, he2⟩ := printSize_inj hx hx' (noDigit_cells hy) (noDigit_cells hy') he1
    obtain ⟨rfl, rfl⟩ := cellsDisplay_inj hy hy' he2
    exact ⟨rfl, rfl⟩
theorem nodesDisplay_inj : ∀ {l l' : List Node} {a a' r r' : Str}, nodesDisplay l = .ok a →
    nodesDisplay l' = .ok a' → a ++ ')' :: r = a' ++ ')' :: r' → l = l' ∧ r = r'
  | [], [], a, a', r, r', h, h', he => by
    simp only [nodesDisplay] at h h'
    cases h; cases h'
    simpa using he
  | [], n :: ns, a, a', r, r', h, h', he => by
    exfalso
    simp only [nodesDisplay] at h h'
    obtain ⟨x, -, h1⟩ := M.bind_eq_ok.1 h'
    obtain ⟨y, -, h2⟩ := M.bind_eq_ok.1 h1
    cases h; cases h2
    simp at he
  | n :: ns, [], a, a', r, r', h, h', he => by
    exfalso
    simp only [nodesDisplay] at h h'
    obtain ⟨x, -, h1⟩ := M.bind_eq_ok.1 h
    obtain ⟨y, -, h2⟩ := M.bind_eq_ok.1 h1
    cases h'; cases h2
    simp at he
  | n :: ns, n' :: ns', a, a', r, r', h, h', he => by
    simp only [nodesDisplay] at h h'
    obtain ⟨x, hx, h1⟩ := M.bind_eq_ok.1 h
    obtain ⟨y, hy, h2⟩ := M.bind_eq_ok.1 h1
    obtain ⟨x', hx', h1'⟩ := M.bind_eq_ok.1 h'
    obtain ⟨y', hy', h2'⟩ := M.bind_eq_ok.1 h1'
    cases h2; cases h2'
    simp only [List.cons_append, List.append_assoc, List.cons.injEq, true_and] at he
    obtain ⟨rfl, he3⟩ := Node.display_inj hx hx' he
    obtain ⟨rfl, rfl⟩ := nodesDisplay_inj hy hy' he3
    exact ⟨rfl, rfl⟩
theorem cellsDisplay_inj : ∀ {l l' : List (List Node)} {a a' r r' : Str}, cellsDisplay l = .ok a →
    cellsDisplay l' = .ok a' → a ++ ')' :: r = a' ++ ')' :: r' → l = l' ∧ r = r'
  | [], [], a, a', r, r', h, h', he => by
    simp only [cellsDisplay] at h h'
    cases h; cases h'
    simpa using he
  | [], n :: ns, a, a', r, r', h, h', he => by
    exfalso
    simp only [cellsDisplay] at h h'
    obtain ⟨x, -, h1⟩ := M.bind_eq_ok.1 h'
    obtain ⟨y, -, h2⟩ := M.bind_eq_ok.1 h1
    cases h; cases h2
    simp at he
  | n :: ns, [], a, a', r, r', h, h', he => by
    exfalso
    simp only [cellsDisplay] at h h'
    obtain ⟨x, -, h1⟩ := M.bind_eq_ok.1 h
    obtain ⟨y, -, h2⟩ := M.bind_eq_ok.1 h1
    cases h'; cases h2
    simp at he
  | n :: ns, n' :: ns', a, a', r, r', h, h', he => by
    simp only [cellsDisplay] at h h'
    obtain ⟨x, hx, h1⟩ := M.bind_eq_ok.1 h
    obtain ⟨y, hy, h2⟩ := M.bind_eq_ok.1 h1
    obtain ⟨x', hx', h1'⟩ := M.bind_eq_ok.1 h'
    obtain ⟨y', hy', h2'⟩ := M.bind_eq_ok.1 h1'
    cases h2; cases h2'
    simp only [List.cons_append, List.append_assoc, List.cons.injEq, true_and,
      List.append_cancel_left_eq] at he
    obtain ⟨rfl, he3⟩ := nodesDisplay_inj hx hx' he
    obtain ⟨rfl, rfl⟩ := cellsDisplay_inj hy hy' he3
    exact ⟨rfl, rfl⟩
end

theorem rowDisplay_inj {a b : Row} {s : Str} (ha : rowDisplay a = .ok s) (hb : rowDisplay b = .ok s) :
    a = b := by
  unfold rowDisplay at ha hb
  obtain ⟨x, hx, h1⟩ := M.bind_eq_ok.1 ha
  obtain ⟨y, hy, h2⟩ := M.bind_eq_ok.1 hb
  cases h1
  simp only [Except.ok.injEq, List.append_assoc, List.append_cancel_left_eq] at h2
  exact (nodesDisplay_inj hx hy (r := []) (r' := []) h2.symm).1

/-! ## When printing succeeds -/

mutual
theorem Node.display_ok : ∀ (n : Node), (∃ s, n.display = .ok s) ↔ n.widthsPos
  | .symbol s => by simp [Node.display, Node.widthsPos]
  | .container v cells w => by
    have ih := cellsDisplay_ok cells
    rw [Node.display, Node.widthsPos]
    constructor
    · rintro ⟨s, h⟩
      obtain ⟨x, hx, h1⟩ := M.bind_eq_ok.1 h
      obtain ⟨y, hy, h2⟩ := M.bind_eq_ok.1 h1
      refine ⟨?_, ih.1 ⟨y, hy⟩⟩
      unfold printSize at hx
      split at hx
      · cases hx
      · omega
    · rintro ⟨h0, h1⟩
      obtain ⟨y, hy⟩ := ih.2 h1
      simp only [printSize, if_neg (show w ≠ 0 by omega), M.ok_bind, hy]
      exact ⟨_, rfl⟩
theorem nodesDisplay_ok : ∀ (l : List Node), (∃ s, nodesDisplay l = .ok s) ↔ rowWidthsPos l
  | [] => by simp [nodesDisplay, rowWidthsPos]
  | n :: ns => by
    rw [nodesDisplay, rowWidthsPos, ← Node.display_ok n, ← nodesDisplay_ok ns]
    constructor
    · rintro ⟨s, h⟩
      obtain ⟨x, hx, h1⟩ := M.bind_eq_ok.1 h
      obtain ⟨y, hy, h2⟩ := M.bind_eq_ok.1 h1
      exact ⟨⟨x, hx⟩, y, hy⟩
    · rintro ⟨⟨x, hx⟩, y, hy⟩
      simp only [hx, hy, M.ok_bind]
      exact ⟨_, rfl⟩
theorem cellsDisplay_ok : ∀ (l : List (List Node)), (∃ s, cellsDisplay l = .ok s) ↔ cellsWidthsPos l
  | [] => by simp [cellsDisplay, cellsWidthsPos]
  | n :: ns => by
    rw [cellsDisplay, cellsWidthsPos, ← nodesDisplay_ok n, ← cellsDisplay_ok ns]
    constructor
    · rintro ⟨s, h⟩
      obtain ⟨x, hx, h1⟩ := M.bind_eq_ok.1 h
      obtain ⟨y, hy, h2⟩ := M.bind_eq_ok.1 h1
      exact ⟨⟨x, hx⟩, y, hy⟩
    · rintro ⟨⟨x, hx⟩, y, hy⟩
      simp only [hx, hy, M.ok_bind]
      exact ⟨_, rfl⟩
end

end Aftermath

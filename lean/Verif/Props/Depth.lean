import Verif.Proof.Depth
import Verif.Proof.WalkDepth
import Verif.Props.Expression
import Verif.Props.Notation

/-! # C106: how deep the calls of the parser nest

`pratt_parse` calls itself for the operand of an operator and for the cells of a container. The stack
that a formula needs is proportional to the number of nested calls. -/

namespace Aftermath

/-- **C106** While a well-formed row is parsed, at most as many calls are nested as the row has nodes
and cells, and one more. -/
theorem C106 (x : Xid) (hx : x.Letters) :
    ∃ g m, createParser x = .ok (g, m) ∧ ∀ row, rowWf row = true →
      ∃ d, ParseDepth g row d ∧ 1 ≤ d ∧ d ≤ rowWeight row + 1 := by
  obtain ⟨g, m, h, hg, -⟩ := createParser_apart hx
  refine ⟨g, m, h, fun row hw => ?_⟩
  obtain ⟨d, h1, h2⟩ := depth_exists hg hw
  refine ⟨d, h2, ?_, h1⟩
  by_contra hd
  exact fuel_zero g row ((h2 0).2 (by omega))

/-- **C106** Each minus sign at the start of a row takes a call that stays open: with `k` of them
more than `k` calls are nested, whatever follows, unless a space or a script follows the last one. -/
theorem C106_minus (x : Xid) (hx : x.Letters) :
    ∃ g m, createParser x = .ok (g, m) ∧ ∀ (k : Nat) (rest : Row) (d : Nat),
      isSym [' '] rest.head? = false → isScript rest.head? = false →
      ParseDepth g (List.replicate k (.symbol ['-']) ++ rest) d → k < d := by
  obtain ⟨g, m, h, hg, -⟩ := createParser_apart hx
  have S := createParser_std hx h
  refine ⟨g, m, h, fun k rest d h1 h2 hd => ?_⟩
  by_contra hlt
  obtain ⟨t, ht⟩ := (hd d).2 (Nat.le_refl d)
  have := minus_deep S h1 h2 d k 0 (List.replicate k (.symbol ['-']) ++ rest) (0, .weak) .eof (by omega) rfl
  unfold Grammar.parseFuel parseWhole at ht
  rw [this] at ht
  cases ht

theorem minuses_weight (k : Nat) : rowWeight (List.replicate k (Node.symbol ['-'])) = k := by
  induction k with
  | zero => rfl
  | succ k ih => simp only [List.replicate_succ, rowWeight, Node.weight, ih]; omega

theorem minuses_wf (k : Nat) : rowWf (List.replicate k (Node.symbol ['-'])) = true := by
  induction k with
  | zero => rfl
  | succ k ih => simp only [List.replicate_succ, rowWf, Node.wf, ih, Bool.and_self]

/-- **C106** So the bound is reached: `k` minus signs are `k` nodes and take `k + 1` nested calls. -/
theorem C106_reached (x : Xid) (hx : x.Letters) :
    ∃ g m, createParser x = .ok (g, m) ∧ ∀ k : Nat,
      ParseDepth g (List.replicate k (.symbol ['-'])) (k + 1) ∧
      rowWeight (List.replicate k (Node.symbol ['-'])) = k := by
  obtain ⟨g, m, h, h1⟩ := C106 x hx
  obtain ⟨g', m', h', h2⟩ := C106_minus x hx
  cases h.symm.trans h'
  refine ⟨g, m, h, fun k => ⟨?_, minuses_weight k⟩⟩
  obtain ⟨d, hd, -, hle⟩ := h1 _ (minuses_wf k)
  have hlt := h2 k [] d rfl rfl (by simpa using hd)
  rw [minuses_weight] at hle
  have : d = k + 1 := by omega
  exact this ▸ hd

/-- **C106** The terms of a sum do not nest: a sum of two or of a thousand terms takes two nested
calls. -/
theorem C106_sum (x : Xid) (hx : x.Usual) :
    ∃ g m, createParser x = .ok (g, m) ∧ ∀ n : Nat, ParseDepth g (sums (n + 1)) 2 := by
  obtain ⟨g, m, h, hg, -⟩ := createParser_apart hx.toLetters
  have S := createParser_std hx.toLetters h
  refine ⟨g, m, h, fun n => depth_of (sum_two S hx _) fun f hf => ?_⟩
  rcases (by omega : f = 0 ∨ f = 1) with rfl | rfl
  · exact fuel_zero g _
  · exact sum_not_one S hx n

/-- **C106** Each opening bracket at the start of a row takes a call that stays open, whether it is
closed or not: with `k` of them more than `k` calls are nested, unless a closing bracket follows the
last one. -/
theorem C106_open (x : Xid) (hx : x.Usual) :
    ∃ g m, createParser x = .ok (g, m) ∧ ∀ (k : Nat) (rest : Row) (d : Nat),
      isSym [')'] rest.head? = false →
      ParseDepth g (List.replicate k (.symbol ['(']) ++ rest) d → k < d := by
  obtain ⟨g, m, h, hg, -⟩ := createParser_apart hx.toLetters
  have S := createParser_std hx.toLetters h
  refine ⟨g, m, h, fun k rest d h1 hd => ?_⟩
  by_contra hlt
  obtain ⟨t, ht⟩ := (hd d).2 (Nat.le_refl d)
  have := open_deep S hx h1 d k 0 (List.replicate k (.symbol ['(']) ++ rest) (0, .weak) .eof (by omega) rfl
  unfold Grammar.parseFuel parseWhole at ht
  rw [this] at ht
  cases ht

/-- **C106** Each level of containers takes a call that stays open: a row with a cell inside `n`
containers takes more than `n` nested calls, whatever else the row holds. -/
theorem C106_cells (x : Xid) (hx : x.Letters) :
    ∃ g m, createParser x = .ok (g, m) ∧ ∀ (row r : Row) (path : RowIndices) (d : Nat),
      rowWf row = true → rowAt row path = some r → ParseDepth g row d → path.length < d := by
  obtain ⟨g, m, h, hg, -⟩ := createParser_apart hx
  refine ⟨g, m, h, fun row r path d hw hr hd => ?_⟩
  obtain ⟨t, ht⟩ := (hd d).2 (Nat.le_refl d)
  obtain ⟨t0, h0, -⟩ := parse_ok hg hw
  have e1 := parseWhole_mono (pratt_mono g (Nat.le_add_right d (rowWeight row + 1))) row t ht
  have e2 := parseWhole_mono (pratt_mono g (Nat.le_add_left (rowWeight row + 1) d)) row t0 h0
  rw [e1] at e2
  cases e2
  obtain ⟨t', hwalk, -⟩ := C47 g hg row hw t h0 path r hr
  exact walks_parse ht path t' hwalk

/-! ## Cases -/

/-- The root of `∞` in a fraction takes more than two nested calls. -/
example (x : Xid) (hx : x.Letters) : ∃ g m, createParser x = .ok (g, m) ∧
    ∀ d, ParseDepth g [.symbol ['1'], .container .fraction
      [[.container .root [[], [.symbol ['∞']]] 2], [.symbol ['2']]] 1] d → 2 < d := by
  obtain ⟨g, m, h, hd⟩ := C106_cells x hx
  exact ⟨g, m, h, fun d hp => hd _ [.symbol ['∞']] [(1, 0), (0, 1)] d (by decide) (by decide) hp⟩


/-- `∞+∞+∞` -/
example : sums 2 = [.symbol ['∞'], .symbol ['+'], .symbol ['∞'], .symbol ['+'], .symbol ['∞']] := rfl

/-- `--1` takes more than two nested calls. -/
example (x : Xid) (hx : x.Letters) : ∃ g m, createParser x = .ok (g, m) ∧
    ∀ d, ParseDepth g [.symbol ['-'], .symbol ['-'], .symbol ['1']] d → 2 < d := by
  obtain ⟨g, m, h, hd⟩ := C106_minus x hx
  exact ⟨g, m, h, fun d => hd 2 [.symbol ['1']] d rfl rfl⟩

/-- `((a` takes more than two nested calls. -/
example (x : Xid) (hx : x.Usual) : ∃ g m, createParser x = .ok (g, m) ∧
    ∀ d, ParseDepth g [.symbol ['('], .symbol ['('], .symbol ['a']] d → 2 < d := by
  obtain ⟨g, m, h, hd⟩ := C106_open x hx
  exact ⟨g, m, h, fun d => hd 2 [.symbol ['a']] d rfl⟩

/-- The empty row takes one call. -/
example (x : Xid) (hx : x.Letters) : ∃ g m, createParser x = .ok (g, m) ∧ ParseDepth g [] 1 := by
  obtain ⟨g, m, h, hd⟩ := C106_reached x hx
  exact ⟨g, m, h, (hd 0).1⟩

end Aftermath

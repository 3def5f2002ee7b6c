import Verif.Proof.SizeClean
import Verif.Proof.SizeDom
import Verif.Proof.SizeSharp
import Verif.Props.Dom

/-! # C86: the syntax tree and the page grow linearly with the formula -/

namespace Aftermath

/-- **C86.** The syntax tree of a formula with `n` symbols, containers and cells has at most
`3.5 n + 1` nodes, whatever is wrong with it. -/
theorem C86 {x : Xid} (hx : x.Letters) {g : Grammar} {m : NameMap} (h : createParser x = .ok (g, m))
    {row : Row} (hw : rowWf row = true) :
    ∃ t, g.parse row = .ok t ∧ 2 * t.size ≤ 7 * rowThings row + 2 := by
  have hg := (createParser_std hx h).good
  obtain ⟨t, ht, -⟩ := parse_ok hg hw
  refine ⟨t, ht, ?_⟩
  rw [rowThings_eq]
  exact whole_small (pratt_small hg _ _) hw (Nat.lt_succ_self _) ht

/-- **C86.** That is the best possible bound: for every `n` there is a row of `2 n` symbols whose tree
has exactly that many nodes. -/
theorem C86_sharp {x : Xid} (hx : x.Usual) {g : Grammar} {m : NameMap}
    (h : createParser x = .ok (g, m)) (n : Nat) :
    ∃ row t, rowWf row = true ∧ rowThings row = 2 * n ∧ g.parse row = .ok t ∧
      2 * t.size = 7 * rowThings row + 2 := by
  have S := createParser_std hx.letters h
  obtain ⟨toks, T, h1, h2, -, h3, h4, -⟩ := C72 S.good (broken_wf n)
  obtain ⟨toks', h5, h6⟩ := broken_reads S hx (row := brokenRow n) n (Nat.zero_le _) rfl
  have := h4 _ _ h5
  subst this
  refine ⟨brokenRow n, _, broken_wf n, by rw [rowThings_eq, broken_weight], h3, ?_⟩
  rw [rowThings_eq, broken_weight, ETree.node_size, h2, h6]
  omega

/-- **C86.** Without errors there are less than two nodes for each symbol, container and cell. -/
theorem C86_clean {x : Xid} (hx : x.Letters) {g : Grammar} {m : NameMap}
    (h : createParser x = .ok (g, m)) {row : Row} {t : SNode} (ht : g.parse row = .ok t)
    (he : ErrorFree g t) : t.size < 2 * rowThings row := by
  have := made_size_clean (made_parse (createParser_std hx h).good ht) he
  simp only [restWeight, List.drop_length, List.drop_zero, rowWeight] at this
  rw [rowThings_eq]
  omega

/-- **C86.** There is one rendered element for each node of the tree, and what is put on the page are at
most `21 n + 3` DOM elements. -/
theorem C86_page {x : Xid} {row : Row} {e : RElem} (hs : Shown x row e) :
    eltsCount (fun _ _ => true) e.elements ≤ 21 * rowThings row + 3 := by
  obtain ⟨hx, hw, g, m, R, t, h, ht, he⟩ := hs
  obtain ⟨t', ht', hsize⟩ := C86 hx h.parser hw
  rw [ht] at ht'
  cases ht'
  have h1 := elements_all e
  rw [render_size he] at h1
  simp only [eltsAll] at h1
  omega

/-! ## Examples -/

/-- The size of the tree of a row of single characters. -/
def sizeOf' (s : String) : Nat :=
  match createParser letterXid with
  | .ok (g, _) =>
    match g.parse (s.toList.map sy) with
    | .ok t => t.size
    | .error _ => 0
  | .error _ => 0

example : sizeOf' "!∑!∑" = 15 := by decide +kernel
example : sizeOf' "--x" = 5 := by decide +kernel
example : sizeOf' "f( x + 1 )" = 16 := by decide +kernel
example : sizeOf' "" = 1 := by decide +kernel

end Aftermath

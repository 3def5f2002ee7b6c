import Verif.Proof.TreeKeep
import Verif.Proof.Depth
import Verif.Model.Walk

/-! # The cells of containers take nested calls -/

namespace Aftermath

/-- Every walk down the tree is shorter than `f`. -/
def WalksBelow (f : Nat) (t : SNode) : Prop :=
  ∀ (p : RowIndices) (t' : SNode), t.walk p = .ok t' → p.length < f

theorem WalksBelow.mono {f f' : Nat} {t : SNode} (h : WalksBelow f t) (hf : f ≤ f') : WalksBelow f' t :=
  fun p t' hp => Nat.lt_of_lt_of_le (h p t' hp) hf

theorem mem_of_childrenWithNewRows {i : Nat} {rows : List SNode} : ∀ {cs : List SNode},
    childrenWithNewRows i cs = .ok rows →
    ∃ c ∈ cs, c.containsIndex i = true ∧ c.childWithNewRows i = .ok rows
  | [], h => by cases h
  | c :: cs, h => by
    rw [childrenWithNewRows] at h
    split at h
    · rename_i hc
      exact ⟨c, List.mem_cons_self .., hc, h⟩
    · obtain ⟨c', h1, h2⟩ := mem_of_childrenWithNewRows h
      exact ⟨c', List.mem_cons_of_mem _ h1, h2⟩

/-- The first step of a walk. -/
theorem walk_cons {t t' : SNode} {i j : Nat} {p : RowIndices} (h : t.walk ((i, j) :: p) = .ok t') :
    ∃ rows u, t.childWithNewRows i = .ok rows ∧ rows[j]? = some u ∧ u.walk p = .ok t' := by
  rw [SNode.walk] at h
  obtain ⟨-, -, h⟩ := M.bind_eq_ok.1 h
  obtain ⟨rows, hr, h⟩ := M.bind_eq_ok.1 h
  cases hj : rows[j]? with
  | none => rw [hj] at h; cases h
  | some u => rw [hj] at h; exact ⟨rows, u, hr, hj, h⟩

theorem walk_of {t t' u : SNode} {i j : Nat} {p : RowIndices} {rows : List SNode}
    (hi : t.containsIndex i = true) (hr : t.childWithNewRows i = .ok rows) (hj : rows[j]? = some u)
    (h : u.walk p = .ok t') : t.walk ((i, j) :: p) = .ok t' := by
  rw [SNode.walk, hi]
  simp only [massert, if_true, M.ok_bind, hr, hj, h]

instance walksBelow_keeps (f : Nat) : KeepsTree (fun _ => True) (WalksBelow f) (WalksBelow (f + 1)) where
  leaf := fun {n lo hi ty ss} _ p t' h => by
    cases p with
    | nil => exact Nat.succ_pos f
    | cons x p =>
      obtain ⟨rows, u, hr, -, -⟩ := walk_cons h
      cases hr
  children := fun {n lo hi cs} _ hc p t' h => by
    cases p with
    | nil => exact Nat.succ_pos f
    | cons x p =>
      obtain ⟨rows, u, hr, hj, hu⟩ := walk_cons h
      obtain ⟨c, h1, h2, h3⟩ := mem_of_childrenWithNewRows (by simpa only [SNode.childWithNewRows] using hr)
      exact hc c h1 _ t' (walk_of h2 h3 hj hu)
  newRows := fun {n lo hi w cs} _ hc p t' h => by
    cases p with
    | nil => exact Nat.succ_pos f
    | cons x p =>
      obtain ⟨rows, u, hr, hj, hu⟩ := walk_cons h
      cases hr
      exact Nat.succ_lt_succ (hc u (List.mem_of_getElem? hj) p t' hu)

variable {g : Grammar}

theorem gives_true (g : Grammar) : g.GivesAll (fun _ => True) :=
  { builtIn := fun _ _ => trivial, rules := fun _ _ _ => trivial, brackets := fun _ _ _ _ _ _ _ => trivial
    errors := fun _ _ => trivial }

/-- A tree made with at most `f` nested calls has no walks of `f` steps. -/
theorem walks_pratt : ∀ f, CallKeep (WalksBelow f) (pratt g f)
  | 0 => fun _ _ _ _ _ _ h => by cases h
  | f + 1 => fun row pos min e res q h => by
    have hd := walks_pratt f
    have hc : CallKeep (WalksBelow (f + 1)) (pratt g f) :=
      fun _ _ _ _ _ _ h => (hd _ _ _ _ _ _ h).mono (Nat.le_succ f)
    rw [pratt, prattBody] at h
    obtain ⟨⟨s, p⟩, hs, h⟩ := M.bind_eq_ok.1 h
    have hstart := keep_start (gives_true g) hc hd hs
    cases s with
    | finished t => cases h; exact hstart
    | left t => exact keep_loop (gives_true g) hc hd _ hstart h

theorem walks_parse {f : Nat} {row : Row} {t : SNode} (h : g.parseFuel f row = .ok t) : WalksBelow f t :=
  keep_whole (walks_pratt f) h

/-! ## Opening brackets -/

variable {x : Xid} {m : NameMap}

/-- Each opening bracket at the start needs a call of its own. -/
theorem open_deep (S : Std x g m) (hx : x.Usual) {rest : Row} (hr : isSym [')'] rest.head? = false) :
    ∀ (f k pos : Nat) (row : Row) (min : Power) (e : Ending), f ≤ k →
    row.drop pos = List.replicate k (sy '(') ++ rest → pratt g f row pos min e = .error .fuel
  | 0, _, _, _, _, _, _, _ => rfl
  | f + 1, 0, _, _, _, _, h, _ => by omega
  | f + 1, k + 1, pos, row, min, e, h, hd => by
    have hd' : row.drop pos = sy '(' :: (List.replicate k (sy '(') ++ rest) := hd
    have hend : atInputEnd row pos = false := by
      rw [atInputEnd, decide_eq_false_iff_not]
      intro hle
      rw [List.drop_eq_nil_of_le hle] at hd'
      cases hd'
    have ih := open_deep S hx hr f k (pos + 1) row (0, .weak) (.sym [')']) (by omega)
      (by rw [← List.drop_drop, hd']; rfl)
    have hget : row[pos]? = some (.symbol ['(']) := by rw [drop_head hd']; rfl
    have hsp : parseSpaces g row pos = .ok (none, pos) := parseSpaces_none (by rw [hget]; rfl)
    have hsel : selectSym (fun s => s == ['(']) row pos = some (['('], pos + 1) := by
      simp [selectSym, hget]
    have hp : parseIter (pratt g f) g row pos g.prefixes = .ok none := by
      rw [S.prefixes, parseIter_starts (i := 0) hd' (by rfl),
        show (shippedPrefixes.filter fun r => starts g (sy '(' :: (List.replicate k (sy '(') ++ rest))
          r.parser) = [] by rfl]
      rfl
    have ha : parseIter (pratt g f) g row pos g.atoms = .error .fuel := by
      rw [S.atoms, parseIter_starts (i := 0) hd' (by rfl), open_atoms S hx (by cases k; exacts [hr, rfl]),
        parseIter, ruleParse]
      simp only [hsp, M.ok_bind, tokenParse, parseBrackets, hsel, ih, M.error_bind]
    rw [pratt_succ, prattBody, prattStart]
    simp only [hend, Bool.false_eq_true, if_false, hp, ha, M.ok_bind, M.error_bind]

end Aftermath

import Verif.Model.Layout
import Verif.Spec.Layout
import Verif.Proof.RenderMade
import Verif.Proof.Symbols

/-! # Rendered elements lie over the row like the nodes of the tree -/

namespace Aftermath

/-- Elements of leaves. -/
def EKind.isLeaf : EKind → Bool
  | .text _ => true
  | .symbol _ _ => true
  | _ => false

/-- Elements that open new rows. -/
def EKind.isRows : EKind → Bool
  | .rows _ => true
  | .root _ => true
  | .table => true
  | _ => false

/-- The elements follow each other from `lo` to `hi`. -/
def Chain : Nat → Nat → List RElem → Prop
  | lo, hi, [] => lo = hi
  | lo, hi, e :: es => e.tree.lo = lo ∧ lo ≤ e.tree.hi ∧ Chain e.tree.hi hi es

/-- The element lies over the row, and the elements of cells are those of trees related to them by
`Q`. -/
inductive Laid (Q : Row → SNode → Prop) : Row → RElem → Prop
  | leaf {row : Row} {k : EKind} {n lo hi : Nat} {ty : LeafType} {ss : List Str}
      {ri : Option RowIndex} : k.isLeaf = true → ss ≠ [] → lo < hi → hi ≤ row.length →
      (∀ i, lo ≤ i → i < hi → ∃ s, row[i]? = some (.symbol s)) →
      Laid Q row (.mk k (.leaf n lo hi ty ss) ri [])
  | empty {row : Row} {k : EKind} {n lo : Nat} {ri : Option RowIndex} :
      k = .nothing ∨ k = .missing → lo ≤ row.length →
      Laid Q row (.mk k (.children n lo lo []) ri [])
  | container {row : Row} {tag : Tag} {n lo hi : Nat} {cs : List SNode} {ri : Option RowIndex}
      {es : List RElem} : es ≠ [] → Chain lo hi es → hi ≤ row.length → (∀ e ∈ es, Laid Q row e) →
      Laid Q row (.mk (.container tag) (.children n lo hi cs) ri es)
  | rows {row : Row} {k : EKind} {n lo w : Nat} {ts : List SNode} {ri : Option RowIndex}
      {es : List RElem} {v : Variant} {cells : List Row} : k.isRows = true →
      row[lo]? = some (.container v cells w) → es.length = cells.length →
      (∀ (j : Nat) c e, cells[j]? = some c → es[j]? = some e → Laid Q c e) →
      (∀ (j : Nat) c e, cells[j]? = some c → es[j]? = some e →
        e.tree.lo = 0 ∧ e.tree.hi = c.length ∧ e.rowIndex = some (lo, j) ∧ Q c e.tree) →
      Laid Q row (.mk k (.newRows n lo (lo + 1) ts w) ri es)

theorem Chain.le : ∀ {es : List RElem} {lo hi : Nat}, Chain lo hi es → lo ≤ hi
  | [], _, _, h => Nat.le_of_eq h
  | _ :: _, _, _, h => Nat.le_trans h.2.1 h.2.2.le

theorem Laid.range {Q : Row → SNode → Prop} {row : Row} {e : RElem} (h : Laid Q row e) :
    e.tree.lo ≤ e.tree.hi ∧ e.tree.hi ≤ row.length := by
  cases h with
  | leaf _ _ h1 h2 _ => exact ⟨Nat.le_of_lt h1, h2⟩
  | empty _ h => exact ⟨Nat.le_refl _, h⟩
  | container _ hc hl _ => exact ⟨hc.le, hl⟩
  | rows _ hr _ _ _ => exact ⟨Nat.le_succ _, (List.getElem?_eq_some_iff.1 hr).1⟩

mutual
/-- Every leaf has symbols. -/
def SNode.LeavesFull : SNode → Prop
  | .leaf _ _ _ _ ss => ss ≠ []
  | .newRows _ _ _ ts _ => LeavesFullAll ts
  | .children _ _ _ cs => LeavesFullAll cs
/-- see `SNode.LeavesFull` -/
def LeavesFullAll : List SNode → Prop
  | [] => True
  | c :: cs => c.LeavesFull ∧ LeavesFullAll cs
end

theorem leavesFullAll_iff : ∀ {cs : List SNode}, LeavesFullAll cs ↔ ∀ c ∈ cs, c.LeavesFull
  | [] => by simp [LeavesFullAll]
  | c :: cs => by rw [LeavesFullAll, leavesFullAll_iff]; simp

variable {g : Grammar} {R : Renderers}

theorem wrap_full {row : Row} {a b p q p' q' : Nat} {sb sa : Option SNode} {t : SNode}
    (hb : Spc g row p q sb) (ha : Spc g row p' q' sa) (h : t.LeavesFull) :
    (wrapSpc g sb t sa a b).LeavesFull := by
  have key : ∀ {p q o}, Spc g row p q o → ∀ u ∈ o, SNode.LeavesFull u := by
    rintro p q o (⟨rfl, -⟩ | ⟨hlt, rfl, -⟩) u hu
    · cases hu
    · cases hu
      simp only [SNode.LeavesFull, ne_eq, List.replicate_eq_nil_iff]
      omega
  have k2 : (SNode.children g.builtIn.whitespaces a b (sb.toList ++ t :: sa.toList)).LeavesFull := by
    simp only [SNode.LeavesFull, leavesFullAll_iff, List.mem_append, Option.mem_toList,
      List.mem_cons]
    rintro c (hc | rfl | hc)
    · exact key hb c hc
    · exact h
    · exact key ha c hc
  cases sb with
  | none =>
    cases sa with
    | none => exact h
    | some _ => exact k2
  | some _ => exact k2

theorem made_full {k : Cat} {row : Row} {a b : Nat} {t : SNode} (h : Made g k row a b t) :
    t.LeavesFull := by
  induction h with
  | missing _ => trivial
  | unknown _ => exact List.cons_ne_nil _ _
  | missingOperator _ _ ih1 ih2 => exact ⟨ih1, trivial, ih2, trivial⟩
  | atom _ _ ih => exact ih
  | «prefix» _ _ _ ih1 ih2 => exact ⟨ih1, ih2, trivial⟩
  | «infix» _ _ _ _ ih1 ih2 ih3 => exact ⟨ih1, ih2, ih3, trivial⟩
  | «postfix» _ _ _ ih1 ih2 => exact ⟨ih1, ih2, trivial⟩
  | opr _ ih => exact ih
  | @script row _ _ _ _ _ _ _ _ _ _ _ _ _ hs _ ih1 ih2 =>
    exact ⟨ih1, wrap_full (.inl ⟨rfl, rfl⟩ : Spc g row 0 0 none) hs ih2, trivial⟩
  | tok hb _ _ hs _ ih => exact wrap_full hb hs ih
  | leaf _ _ _ _ h => exact h
  | emptyBrackets _ _ => exact ⟨List.cons_ne_nil _ _, List.cons_ne_nil _ _, trivial⟩
  | brackets _ _ _ ih => exact ⟨List.cons_ne_nil _ _, ih, List.cons_ne_nil _ _, trivial⟩
  | container _ hlen _ _ _ ih =>
    simp only [SNode.LeavesFull, leavesFullAll_iff]
    intro c hc
    obtain ⟨j, hj⟩ := List.getElem?_of_mem hc
    have hj' := (List.getElem?_eq_some_iff.1 hj).1
    exact ih j _ c (List.getElem?_eq_getElem (by omega)) hj

theorem FillsCells.laid {Q : Row → SNode → Prop} : ∀ {cells : List Row} {ts : List SNode},
    FillsCells Q cells ts → ts.length = cells.length ∧ ∀ (j : Nat) c t, cells[j]? = some c →
      ts[j]? = some t → FillsAt Q c 0 c.length t ∧ Q c t
  | [], [], _ => ⟨rfl, by simp⟩
  | [], _ :: _, h => by simp only [FillsCells] at h
  | _ :: _, [], h => by simp only [FillsCells] at h
  | r :: rs, t :: ts, h => by
    simp only [FillsCells] at h
    obtain ⟨h1, h2⟩ := FillsCells.laid h.2.2.2.2
    refine ⟨by simp [h1], fun j c u hc hu => ?_⟩
    cases j with
    | zero =>
      simp only [List.getElem?_cons_zero, Option.some.injEq] at hc hu
      subst hc hu
      exact ⟨⟨h.2.2.2.1, h.1, h.2.1⟩, h.2.2.1⟩
    | succ j => exact h2 j c u (by simpa using hc) (by simpa using hu)

theorem FillsList.mem {Q : Row → SNode → Prop} {row : Row} : ∀ {cs : List SNode} {lo hi : Nat},
    FillsList Q row lo hi cs → ∀ c ∈ cs, Fills Q row c
  | [], _, _, _, _, hc => by cases hc
  | c :: cs, lo, hi, h, d, hd => by
    simp only [FillsList] at h
    rcases List.mem_cons.1 hd with rfl | hd
    · exact h.2.1
    · exact FillsList.mem h.2.2 d hd

theorem FillsList.chain {Q : Row → SNode → Prop} {row : Row} : ∀ {cs : List SNode}
    {es : List RElem} {lo hi : Nat}, FillsList Q row lo hi cs →
    List.Forall₂ (fun c e => e.tree = c) cs es → Chain lo hi es
  | [], _, _, _, h, h' => by
    cases h'
    simp only [FillsList] at h
    exact h.1
  | c :: cs, _, _, _, h, h' => by
    cases h' with
    | cons h1 h2 =>
      simp only [FillsList] at h
      subst h1
      exact ⟨h.1, by have := h.2.1.le; omega, FillsList.chain h.2.2 h2⟩

/-- Elements that come out of the renderer lie over the row. -/
theorem render_laid {Q : Row → SNode → Prop} : ∀ {t : SNode} {row : Row} {ri : Option RowIndex}
    {o : ROpts} {e : RElem}, render R ri o t = .ok e → Fills Q row t → t.LeavesFull →
    Laid Q row e ∧ e.tree = t ∧ (o.override = none → e.rowIndex = ri)
  | .leaf n lo hi ty ss, row, ri, o, e, h, hf, hl => by
    have hle := hf.le
    simp only [Fills] at hf
    obtain ⟨hlt, ss', hs, hs', -⟩ := hf
    have hsym : ∀ i, lo ≤ i → i < hi → ∃ s, row[i]? = some (.symbol s) := by
      intro i h1 h2
      have := (SymsAt.mk (row := row) (lo := lo) (hi := hi) (ss := ss') (by rw [hs']; exact hs)
        (by omega) hle.2).get h1 h2
      exact this.imp fun _ h => h.2
    rw [render] at h
    split at h <;> cases h <;>
      exact ⟨.leaf rfl hl hlt hle.2 hsym, rfl, fun _ => rfl⟩
  | .children n lo hi cs, row, ri, o, e, h, hf, hl => by
    have hle := hf.le
    simp only [Fills] at hf
    cases hk : hashGet R n with
    | none => rw [render, hk] at h; cases h
    | some k =>
      cases hc : contOf ri o k with
      | some x =>
        obtain ⟨tag, o'⟩ := x
        obtain ⟨-, hne, -, es, hes, rfl⟩ := (render_children_ok hk hc).1 h
        have hl' := leavesFullAll_iff.1 hl
        have hch : List.Forall₂ (fun c e => e.tree = c ∧ Laid Q row e) cs es := by
          have : List.Forall₂ (fun c e => c ∈ cs ∧ render R none o' c = .ok e) cs es :=
            List.forall₂_iff_get.2 ⟨hes.length_eq, fun i h1 h2 =>
              ⟨List.get_mem _ _, (List.forall₂_iff_get.1 hes).2 i h1 h2⟩⟩
          refine this.imp fun c e ⟨hm, he⟩ => ?_
          have := render_laid he (hf.mem c hm) (hl' c hm)
          exact ⟨this.2.1, this.1⟩
        refine ⟨.container ?_ (hf.chain (hch.imp fun _ _ h => h.1)) hle.2 ?_, rfl, fun _ => rfl⟩
        · rintro rfl
          cases hes
          exact hne rfl
        · intro e he
          obtain ⟨i, hi⟩ := List.getElem?_of_mem he
          obtain ⟨h1, h2⟩ := List.getElem?_eq_some_iff.1 hi
          have := (List.forall₂_iff_get.1 hch).2 i (by rw [hes.length_eq]; exact h1) h1
          rw [← h2]
          exact this.2
      | none =>
        rw [render, hk] at h
        cases k <;> first
          | (cases hc; done)
          | cases h
          | (simp only [massert_bind, List.isEmpty_iff, beq_iff_eq] at h
             obtain ⟨rfl, rfl, h⟩ := h
             cases h
             exact ⟨.empty (by simp) hle.2, rfl, fun _ => rfl⟩)
  | .newRows n lo hi ts w, row, ri, o, e, h, hf, hl => by
    simp only [Fills] at hf
    obtain ⟨rfl, v, cells, hr, hcells⟩ := hf
    obtain ⟨hlen, hcells⟩ := hcells.laid
    have hl' := leavesFullAll_iff.1 hl
    cases hk : hashGet R n with
    | none => rw [render, hk] at h; cases h
    | some k =>
      cases hc : rowsOf o ri k with
      | none =>
        rw [render, hk] at h
        cases k <;> first
          | (cases hc; done)
          | cases h
          | (simp only [rowsOf, Option.map_eq_none_iff] at hc
             simp only [hc] at h
             cases h)
      | some x =>
        obtain ⟨ek, tag, ri'⟩ := x
        obtain ⟨-, -, -, -, es, hes, rfl⟩ := (render_newRows_ok hk hc).1 h
        obtain ⟨hel, hes⟩ := renderRows_ok.1 hes
        have key : ∀ (j : Nat) c e, cells[j]? = some c → es[j]? = some e → Laid Q c e ∧
            e.tree.lo = 0 ∧ e.tree.hi = c.length ∧ e.rowIndex = some (lo, j) ∧ Q c e.tree := by
          intro j c e hcj hej
          have hj := (List.getElem?_eq_some_iff.1 hej).1
          have htj : ts[j]? = some ts[j] := List.getElem?_eq_getElem (by omega)
          have hm : ts[j] ∈ ts := List.getElem_mem _
          obtain ⟨hfa, hq⟩ := hcells j c _ hcj htj
          obtain ⟨h1, h2, h3⟩ := render_laid (hes j _ e htj hej) hfa.fills (hl' _ hm)
          refine ⟨h1, by rw [h2]; exact hfa.lo_eq, by rw [h2]; exact hfa.hi_eq, ?_,
            by rw [h2]; exact hq⟩
          have := h3 rfl
          rwa [Nat.zero_add] at this
        refine ⟨.rows ?_ hr (by omega) (fun j c e h1 h2 => (key j c e h1 h2).1)
          (fun j c e h1 h2 => (key j c e h1 h2).2), rfl, fun ho => ?_⟩
        · cases k <;> simp only [rowsOf, Option.some.injEq, Prod.mk.injEq, reduceCtorEq,
            Option.map_eq_some_iff] at hc
          · obtain ⟨_, -, rfl, -⟩ := hc; rfl
          all_goals (obtain ⟨rfl, -⟩ := hc; rfl)
        · cases k <;> simp only [rowsOf, ho, Option.some.injEq, Prod.mk.injEq, reduceCtorEq,
            Option.map_none] at hc
          all_goals (obtain ⟨-, -, rfl⟩ := hc; rfl)
  termination_by t => sizeOf t
  decreasing_by
    · have := List.sizeOf_lt_of_mem hm
      simp only [SNode.children.sizeOf_spec]
      omega
    · have := List.sizeOf_lt_of_mem hm
      simp only [SNode.newRows.sizeOf_spec]
      omega

/-! ## Caret positions -/

theorem textNodeAt_ok {t : SNode} {off : Nat} (h : t.symbolCount ≠ 0) :
    ∃ r, textNodeAt t off = .ok r := by
  unfold textNodeAt
  simp only [h, if_false]
  exact ⟨_, rfl⟩

theorem hasOffset_iff {t : SNode} {off : Nat} :
    t.hasOffset off = true ↔ t.lo ≤ off ∧ off ≤ t.hi := by
  simp [SNode.hasOffset]

theorem caretPositionIn_ok {G : Geom} {path : List Nat} {off : Nat} : ∀ {es : List RElem}
    {i lo hi : Nat}, es ≠ [] → Chain lo hi es → lo ≤ off → off ≤ hi →
    (∀ e ∈ es, ∀ path, e.tree.lo ≤ off → off ≤ e.tree.hi → ∃ c, caretPosition G path off e = .ok c) →
    ∃ c, caretPositionIn G path i off es = .ok c
  | [], _, _, _, h, _, _, _, _ => absurd rfl h
  | e :: es, i, lo, hi, _, hc, h1, h2, h => by
    rw [caretPositionIn]
    by_cases ho : e.tree.hasOffset off
    · rw [if_pos ho]
      have := hasOffset_iff.1 ho
      exact h e List.mem_cons_self _ this.1 this.2
    · rw [if_neg ho]
      rw [hasOffset_iff] at ho
      have hlt : e.tree.hi < off := by
        have := hc.1
        omega
      refine caretPositionIn_ok ?_ hc.2.2 (Nat.le_of_lt hlt) h2
        fun e' he' => h e' (List.mem_cons_of_mem _ he')
      rintro rfl
      have := hc.2.2
      simp only [Chain] at this
      omega

/-- Every offset of an element has a position on the screen. -/
theorem Laid.caretPosition_ok {Q : Row → SNode → Prop} {G : Geom} {row : Row} {e : RElem} (h : Laid Q row e) :
    ∀ {path : List Nat} {off : Nat}, e.tree.lo ≤ off → off ≤ e.tree.hi →
    ∃ c, caretPosition G path off e = .ok c := by
  induction h with
  | @leaf row k n lo hi ty ss ri hk hss hlt _ _ =>
    intro path off h1 h2
    have hs : (SNode.leaf n lo hi ty ss).symbolCount ≠ 0 := by
      simp only [SNode.symbolCount, ne_eq, List.length_eq_zero_iff]
      exact hss
    obtain ⟨x, hx⟩ : ∃ x, leafX G path (.leaf n lo hi ty ss) off = .ok x := by
      unfold leafX
      simp only
      split
      · exact ⟨_, rfl⟩
      · split
        · exact ⟨_, rfl⟩
        · obtain ⟨r, hr⟩ := textNodeAt_ok (off := off) hs
          rw [hr]
          exact ⟨_, rfl⟩
    have ho : (SNode.leaf n lo hi ty ss).hasOffset off = true := hasOffset_iff.2 ⟨h1, h2⟩
    obtain ⟨r, hr⟩ := textNodeAt_ok (off := off) hs
    cases k <;> first | (cases hk; done) | skip
    all_goals
      simp only [caretPosition, ho, hx, hr, massert, if_true, M.ok_bind]
      exact ⟨_, rfl⟩
  | empty hk _ =>
    intro path off h1 h2
    have : off = _ := Nat.le_antisymm h2 h1
    subst this
    rcases hk with rfl | rfl <;>
      simp only [caretPosition, SNode.lo, massert, beq_self_eq_true, if_true, M.ok_bind] <;>
      exact ⟨_, rfl⟩
  | container hne hc _ _ ih =>
    intro path off h1 h2
    have ho := hasOffset_iff.2 ⟨h1, h2⟩
    simp only [RElem.tree] at ho
    simp only [caretPosition, ho, massert, if_true, M.ok_bind]
    exact caretPositionIn_ok hne hc h1 h2 fun e he path => ih e he
  | @rows row k n lo w ts ri es v cells hk hr _ _ _ _ =>
    intro path off h1 h2
    have ho := hasOffset_iff.2 ⟨h1, h2⟩
    simp only [RElem.tree] at ho
    simp only [RElem.tree, SNode.lo, SNode.hi] at h1 h2
    have : ∃ c, rowsCaretPosition G path (.newRows n lo (lo + 1) ts w) off = .ok c := by
      unfold rowsCaretPosition
      simp only [ho, massert, if_true, M.ok_bind]
      by_cases h : off = (SNode.newRows n lo (lo + 1) ts w).lo
      · rw [if_pos h]
        exact ⟨_, rfl⟩
      · have h' : off = (SNode.newRows n lo (lo + 1) ts w).hi := by
          simp only [SNode.lo, SNode.hi] at h ⊢
          omega
        rw [if_neg h, if_pos h']
        exact ⟨_, rfl⟩
    cases k <;> first | (cases hk; done) | (simpa only [caretPosition] using this)

/-! ## Finding rows -/

theorem childWithIn_ok {path : List Nat} {index : Nat} : ∀ {es : List RElem} {i lo hi : Nat},
    Chain lo hi es → lo ≤ index → index < hi →
    ∃ e ∈ es, ∃ path', childWithIn path i index es = some (childWith path' index e) ∧
      e.tree.lo ≤ index ∧ index < e.tree.hi
  | [], _, _, _, hc, h1, h2 => by simp only [Chain] at hc; omega
  | e :: es, i, lo, hi, hc, h1, h2 => by
    rw [childWithIn]
    by_cases ho : e.tree.lo ≤ index ∧ index < e.tree.hi
    · rw [if_pos ho]
      exact ⟨e, List.mem_cons_self, _, rfl, ho⟩
    · rw [if_neg ho]
      have hle : e.tree.hi ≤ index := by
        have := hc.1
        omega
      obtain ⟨e', he', h⟩ := childWithIn_ok hc.2.2 hle h2
      exact ⟨e', List.mem_cons_of_mem _ he', h⟩

/-- The element over a container of the row. -/
structure RowsOver (Q : Row → SNode → Prop) (row : Row) (i : Nat) (cells : List Row) (e : RElem) : Prop where
  length : e.children.length = cells.length
  cell : ∀ (j : Nat) c e', cells[j]? = some c → e.children[j]? = some e' → Laid Q c e' ∧
    e'.tree.lo = 0 ∧ e'.tree.hi = c.length ∧ e'.rowIndex = some (i, j) ∧ Q c e'.tree

theorem Laid.childWith_ok {Q : Row → SNode → Prop} {row : Row} {e : RElem} (h : Laid Q row e) : ∀ {path : List Nat} {i w : Nat}
    {v : Variant} {cells : List Row}, row[i]? = some (.container v cells w) → e.tree.lo ≤ i →
    i < e.tree.hi → RowsOver Q row i cells (childWith path i e).2 := by
  induction h with
  | leaf _ _ _ _ hs =>
    intro path i w v cells hr h1 h2
    obtain ⟨s, h⟩ := hs i h1 h2
    rw [hr] at h
    cases h
  | empty _ _ =>
    intro path i w v cells hr h1 h2
    exact absurd h2 (Nat.not_lt.2 h1)
  | container hne hc _ _ ih =>
    intro path i w v cells hr h1 h2
    obtain ⟨e, he, path', h3, h4, h5⟩ := childWithIn_ok (path := path) (i := 0) hc h1 h2
    rw [childWith]
    simp only [h3, Option.getD_some]
    exact ih e he hr h4 h5
  | @rows row k n lo w' ts ri es v' cells' hk hr hlen hl hc _ =>
    intro path i w v cells hr' h1 h2
    simp only [RElem.tree, SNode.lo, SNode.hi] at h1 h2
    have : i = lo := by omega
    subst this
    rw [hr] at hr'
    cases hr'
    rw [childWith]
    case x_2 => nofun
    exact ⟨hlen, fun j c e h1 h2 => ⟨hl j c e h1 h2, hc j c e h1 h2⟩⟩

theorem findRow_ok {path : List Nat} {a b : Nat} : ∀ {es : List RElem} {i j : Nat},
    (∀ k e, es[k]? = some e → e.rowIndex = some (a, j + k)) → j ≤ b → b < j + es.length →
    ∃ path' e, findRow path i b es = some (path', e) ∧ es[b - j]? = some e
  | [], _, _, _, h1, h2 => by simp at h2; omega
  | e :: es, i, j, h, h1, h2 => by
    have he := h 0 e rfl
    rw [findRow, he]
    simp only [Nat.add_zero]
    by_cases hj : j = b
    · subst hj
      exact ⟨path ++ [i], e, by simp, by simp⟩
    · rw [if_neg hj]
      simp only [List.length_cons] at h2
      obtain ⟨p, e', h3, h4⟩ := findRow_ok (path := path) (a := a) (b := b) (es := es) (i := i + 1)
        (j := j + 1) (fun k e' hk => by
          have := h (k + 1) e' (by simpa using hk)
          rwa [show j + 1 + k = j + (k + 1) by omega]) (by omega) (by omega)
      refine ⟨p, e', h3, ?_⟩
      rw [show b - j = (b - (j + 1)) + 1 by omega, List.getElem?_cons_succ]
      exact h4

/-- The element of a whole row. -/
structure LaidRow (Q : Row → SNode → Prop) (row : Row) (e : RElem) : Prop where
  laid : Laid Q row e
  tree : Q row e.tree
  lo_eq : e.tree.lo = 0
  hi_eq : e.tree.hi = row.length

theorem getElement_ok {Q : Row → SNode → Prop} : ∀ {p : RowIndices} {row : Row} {e : RElem} {path : List Nat} {r : Row},
    LaidRow Q row e → rowAt row p = some r →
    ∃ path' e', getElement (path, e) p = .ok (path', e') ∧ LaidRow Q r e'
  | [], row, e, path, r, h, hr => by
    cases hr
    exact ⟨path, e, by rw [getElement], h⟩
  | (a, b) :: p, row, e, path, r, h, hr => by
    rw [rowAt] at hr
    split at hr
    · rename_i v cells w hc
      split at hr
      · rename_i c hcb
        have ha := (List.getElem?_eq_some_iff.1 hc).1
        have hb := (List.getElem?_eq_some_iff.1 hcb).1
        have hov := h.laid.childWith_ok (path := path) hc (by rw [h.lo_eq]; omega)
          (by rw [h.hi_eq]; exact ha)
        obtain ⟨p', e', h1, h2⟩ := findRow_ok (path := (childWith path a e).1) (a := a) (b := b)
          (es := (childWith path a e).2.children) (i := 0) (j := 0)
          (fun k e' hk => by
            have hk' := (List.getElem?_eq_some_iff.1 hk).1
            rw [Nat.zero_add]
            exact (hov.cell k _ e' (List.getElem?_eq_getElem (by rw [← hov.length]; exact hk')) hk).2.2.2.1)
          (Nat.zero_le _) (by rw [hov.length]; omega)
        obtain ⟨h3, h4, h5, -, h8⟩ := hov.cell b c e' hcb h2
        obtain ⟨p'', e'', h6, h7⟩ := getElement_ok (path := p') ⟨h3, h8, h4, h5⟩ hr
        refine ⟨p'', e'', ?_, h7⟩
        rw [getElement]
        have hm : (decide (e.tree.lo ≤ a) && decide (a < e.tree.hi)) = true := by
          rw [h.lo_eq, h.hi_eq]
          simpa using ha
        simp only [hm, massert, if_true, M.ok_bind, h1, h6]
      · cases hr
    · cases hr

/-! ## Paths -/

theorem RElem.at_append : ∀ {e c : RElem} {p : List Nat} (q : List Nat), e.at p = some c →
    e.at (p ++ q) = c.at q
  | e, c, [], q, h => by cases e; cases h; rfl
  | .mk k t ri cs, c, i :: p, q, h => by
    simp only [RElem.at, List.cons_append] at h ⊢
    split at h
    · exact at_append q h
    · cases h

theorem RElem.at_child {e c d : RElem} {p : List Nat} {i : Nat} (h : e.at p = some c)
    (hd : c.children[i]? = some d) : e.at (p ++ [i]) = some d := by
  rw [at_append [i] h]
  cases c
  simp only [RElem.children] at hd
  simp only [RElem.at, hd]

theorem findRow_at {root e : RElem} {path : List Nat} {b : Nat} (h : root.at path = some e) :
    ∀ {cs : List RElem} {i : Nat} {r : Located}, (∀ j c, cs[j]? = some c →
      e.children[i + j]? = some c) → findRow path i b cs = some r → root.at r.1 = some r.2
  | [], _, _, _, hr => by cases hr
  | c :: cs, i, r, hc, hr => by
    have ih := findRow_at (b := b) h (cs := cs) (i := i + 1) (r := r) fun j d hd => by
      have := hc (j + 1) d (by simpa using hd)
      rwa [show i + 1 + j = i + (j + 1) by omega]
    rw [findRow] at hr
    split at hr
    · split at hr
      · cases hr
        exact RElem.at_child h (hc 0 c rfl)
      · exact ih hr
    · exact ih hr

mutual
theorem childWith_at {root : RElem} {path : List Nat} {index : Nat} : ∀ {e : RElem},
    root.at path = some e → root.at (childWith path index e).1 = some (childWith path index e).2
  | .mk k t ri cs, h => by
    have := fun r => childWithIn_at (index := index) h (cs := cs) (i := 0) (r := r) fun j c hc => by
      rw [Nat.zero_add]; exact hc
    cases t with
    | children n lo hi ts =>
      simp only [childWith]
      cases hc : childWithIn path 0 index cs with
      | none => exact h
      | some r => exact this r hc
    | newRows n lo hi ts w => simp only [childWith]; exact h
    | leaf n lo hi ty ss => simp only [childWith]; exact h
theorem childWithIn_at {root e : RElem} {path : List Nat} {index : Nat}
    (h : root.at path = some e) : ∀ {cs : List RElem} {i : Nat} {r : Located}, (∀ j c,
      cs[j]? = some c → e.children[i + j]? = some c) → childWithIn path i index cs = some r →
      root.at r.1 = some r.2
  | [], _, _, _, hr => by simp only [childWithIn, reduceCtorEq] at hr
  | c :: cs, i, r, hc, hr => by
    rw [childWithIn] at hr
    split at hr
    · cases hr
      exact childWith_at (RElem.at_child h (hc 0 c rfl))
    · refine childWithIn_at h (cs := cs) (i := i + 1) (r := r) (fun j d hd => ?_) hr
      have := hc (j + 1) d (by simpa using hd)
      rwa [show i + 1 + j = i + (j + 1) by omega]
end

theorem getElement_at {root : RElem} : ∀ {p : RowIndices} {e r : Located},
    root.at e.1 = some e.2 → getElement e p = .ok r → root.at r.1 = some r.2
  | [], _, _, h, hr => by cases hr; exact h
  | (a, b) :: p, (path, e), r, h, hr => by
    simp only [getElement] at hr
    obtain ⟨_, -, hr⟩ := M.bind_eq_ok.1 hr
    split at hr
    · cases hr
    · rename_i r' hf
      refine getElement_at (findRow_at (childWith_at h) (fun j c hc => ?_) hf) hr
      rwa [Nat.zero_add]

theorem viewportSelection_ok {Q : Row → SNode → Prop} {G : Geom} {row r : Row} {e : RElem} {rng : MinRange}
    (h : LaidRow Q row e) (hr : rowAt row rng.rowIndices = some r) (h1 : rng.start ≤ r.length)
    (h2 : rng.stop ≤ r.length) : ∃ s, viewportSelection G e rng = .ok s := by
  obtain ⟨path, e', h3, h4⟩ := getElement_ok (path := []) h hr
  have key : ∀ off, off ≤ r.length → ∃ c, caretPosition G path off e' = .ok c := fun off ho =>
    h4.laid.caretPosition_ok (by rw [h4.lo_eq]; omega) (by rw [h4.hi_eq]; exact ho)
  obtain ⟨c1, hc1⟩ := key 0 (Nat.zero_le _)
  obtain ⟨c2, hc2⟩ := key _ h1
  obtain ⟨c3, hc3⟩ := key _ h2
  unfold viewportSelection
  simp only [h3, hc1, hc2, hc3, M.ok_bind]
  exact ⟨_, rfl⟩

theorem viewportCaretSize_ok {Q : Row → SNode → Prop} {G : Geom} (hG : ∀ p, 0 < G.fontSize p) {row r : Row} {e : RElem}
    {p : RowIndices} (h : LaidRow Q row e) (hr : rowAt row p = some r) :
    ∃ s, viewportCaretSize G e p = .ok s := by
  obtain ⟨path, e', h3, -⟩ := getElement_ok (path := []) h hr
  unfold viewportCaretSize
  simp only [h3, M.ok_bind, hG, decide_true, massert, if_true]
  exact ⟨_, rfl⟩

theorem viewportRowBounds_ok {Q : Row → SNode → Prop} {G : Geom} {row r : Row} {e : RElem} {p : RowIndices}
    (h : LaidRow Q row e) (hr : rowAt row p = some r) : ∃ s, viewportRowBounds G e p = .ok s := by
  obtain ⟨path, e', h3, -⟩ := getElement_ok (path := []) h hr
  unfold viewportRowBounds
  simp only [h3, M.ok_bind]
  exact ⟨_, rfl⟩

/-- What is rendered for a parsed formula. -/
theorem parse_laid (hg : g.Good) {row : Row} (hw : rowWf row = true) {t : SNode} {e : RElem}
    (ht : g.parse row = .ok t) (he : renderAll R t = .ok e) : LaidRow (ParsesTo g) row e ∧ e.tree = t := by
  obtain ⟨t', ht', hf⟩ := parse_ok hg hw
  rw [ht] at ht'
  cases ht'
  obtain ⟨h1, h2, -⟩ := render_laid he hf.fills (made_full (made_parse hg ht))
  exact ⟨⟨h1, by rw [h2]; exact ⟨_, ht⟩, by rw [h2]; exact hf.lo_eq, by rw [h2]; exact hf.hi_eq⟩, h2⟩

end Aftermath

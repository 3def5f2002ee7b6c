import Verif.Proof.Rename
import Verif.Proof.NotationRules

/-! # The page commutes with replacing characters -/

namespace Aftermath

variable {φ : Char → Char}

mutual
/-- the rendered element with renamed trees -/
def RElem.rename (φ : Char → Char) : RElem → RElem
  | .mk k t ri cs => .mk k (t.rename φ) ri (RElem.renameAll φ cs)
/-- see `RElem.rename` -/
def RElem.renameAll (φ : Char → Char) : List RElem → List RElem
  | [] => []
  | e :: es => e.rename φ :: RElem.renameAll φ es
end

theorem RElem.renameAll_map (es : List RElem) : RElem.renameAll φ es = es.map (RElem.rename φ) := by
  induction es with
  | nil => rfl
  | cons e es ih => rw [RElem.renameAll, ih]; rfl

theorem Elt.renameAll_map (es : List Elt) : Elt.renameAll φ es = es.map (Elt.rename φ) := by
  induction es with
  | nil => rfl
  | cons e es ih => rw [Elt.renameAll, ih]; rfl

@[simp] theorem SNode.rename_isNewRows (t : SNode) : (t.rename φ).isNewRows = t.isNewRows := by
  cases t <;> simp [SNode.rename, SNode.isNewRows]

@[simp] theorem SNode.rename_width (t : SNode) : (t.rename φ).width = t.width := by
  cases t <;> simp [SNode.rename, SNode.width]

theorem rowsAsserts_rename (lo hi : Nat) (ts : List SNode) :
    rowsAsserts lo hi (SNode.renameAll φ ts) = rowsAsserts lo hi ts := by
  unfold rowsAsserts
  rw [SNode.renameAll_map, List.length_map]

theorem munwrap_rename (cs : List SNode) :
    MRen (SNode.rename φ) (munwrap cs[1]?) (munwrap (SNode.renameAll φ cs)[1]?) := by
  rw [SNode.renameAll_map, List.getElem?_map]
  cases cs[1]? with
  | none => exact MRen.error _
  | some c => exact MRen.ok rfl

mutual
theorem render_rename (R : Renderers) : (t : SNode) → (ri : Option RowIndex) → (o : ROpts) →
    MRen (RElem.rename φ) (render R ri o t) (render R ri o (t.rename φ))
  | .children n lo hi cs, ri, o => by
    simp only [SNode.rename, render]
    cases hashGet R n with
    | none => exact MRen.error _
    | some k =>
      have hemp : (SNode.renameAll φ cs).isEmpty = cs.isEmpty := by
        rw [SNode.renameAll_map, List.isEmpty_map]
      cases k with
      | nothing =>
        simp only [hemp]
        exact MRen.same fun _ => MRen.same fun _ => MRen.ok (by simp [RElem.rename, SNode.rename, RElem.renameAll])
      | missingToken =>
        simp only [hemp]
        exact MRen.same fun _ => MRen.same fun _ => MRen.ok (by simp [RElem.rename, SNode.rename, RElem.renameAll])
      | whitespaces =>
        exact MRen.bind (renderContainer_rename R cs o .mrow) fun _ => MRen.ok (by simp [RElem.rename, SNode.rename])
      | operator =>
        exact MRen.bind (renderContainer_rename R cs .none .mrow) fun _ => MRen.ok (by simp [RElem.rename, SNode.rename])
      | container =>
        exact MRen.bind (renderContainer_rename R cs .none .mrow) fun _ => MRen.ok (by simp [RElem.rename, SNode.rename])
      | brackets =>
        exact MRen.bind (renderContainer_rename R cs _ .mrow) fun _ => MRen.ok (by simp [RElem.rename, SNode.rename])
      | sup =>
        refine MRen.bind (munwrap_rename cs) fun c => ?_
        rw [SNode.rename_isNewRows]
        refine MRen.same fun _ => ?_
        exact MRen.bind (renderContainer_rename R cs _ .msup) fun _ => MRen.ok (by simp [RElem.rename, SNode.rename])
      | sub =>
        refine MRen.bind (munwrap_rename cs) fun c => ?_
        rw [SNode.rename_isNewRows]
        refine MRen.same fun _ => ?_
        exact MRen.bind (renderContainer_rename R cs _ .msub) fun _ => MRen.ok (by simp [RElem.rename, SNode.rename])
      | _ => exact MRen.error _
  | .leaf n lo hi ty ss, ri, o => by
    simp only [SNode.rename, render]
    cases hashGet R n with
    | none => exact MRen.error _
    | some k =>
      cases k with
      | whitespace => exact MRen.ok (by simp [RElem.rename, SNode.rename, RElem.renameAll])
      | operator => exact MRen.ok (by simp [RElem.rename, SNode.rename, RElem.renameAll])
      | unknownToken => exact MRen.ok (by simp [RElem.rename, SNode.rename, RElem.renameAll])
      | text tag => exact MRen.ok (by simp [RElem.rename, SNode.rename, RElem.renameAll])
      | _ => exact MRen.error _
  | .newRows n lo hi ts w, ri, o => by
    have hlen : ∀ es : List RElem, (RElem.renameAll φ es).length = es.length := fun es => by
      rw [RElem.renameAll_map, List.length_map]
    have hlen' : (SNode.renameAll φ ts).length = ts.length := by
      rw [SNode.renameAll_map, List.length_map]
    simp only [SNode.rename, render, rowsAsserts_rename, hlen']
    cases hashGet R n with
    | none => exact MRen.error _
    | some k =>
      cases k with
      | operator =>
        cases o.override with
        | none => exact MRen.error _
        | some captured =>
          refine MRen.same fun _ => MRen.bind (renderRows_rename R lo ts 0) fun es => ?_
          rw [hlen]
          exact MRen.same fun _ => MRen.ok (by simp [RElem.rename, SNode.rename])
      | fraction =>
        refine MRen.same fun _ => MRen.bind (renderRows_rename R lo ts 0) fun es => ?_
        rw [hlen]
        exact MRen.same fun _ => MRen.ok (by simp [RElem.rename, SNode.rename])
      | root =>
        refine MRen.same fun _ => MRen.bind (renderRows_rename R lo ts 0) fun es => ?_
        rw [hlen]
        exact MRen.same fun _ => MRen.ok (by simp [RElem.rename, SNode.rename])
      | table =>
        refine MRen.same fun _ => MRen.bind (renderRows_rename R lo ts 0) fun es => ?_
        rw [hlen]
        exact MRen.same fun _ => MRen.same fun _ => MRen.same fun _ =>
          MRen.ok (by simp [RElem.rename, SNode.rename])
      | _ => exact MRen.error _
theorem renderContainer_rename (R : Renderers) : (cs : List SNode) → (o : ROpts) → (tag : Tag) →
    MRen (RElem.renameAll φ) (renderContainer R o tag cs)
      (renderContainer R o tag (SNode.renameAll φ cs))
  | [], o, tag => by simp only [SNode.renameAll, renderContainer]; exact MRen.error _
  | c :: cs, o, tag => by
    simp only [SNode.renameAll, renderContainer]
    refine MRen.bind (render_rename R c none o) fun e => ?_
    refine MRen.bind (renderAllSame_rename R cs o) fun es => ?_
    rw [RElem.renameAll_map, List.length_map]
    exact MRen.same fun _ => MRen.ok (by simp [RElem.renameAll, RElem.renameAll_map])
theorem renderAllSame_rename (R : Renderers) : (cs : List SNode) → (o : ROpts) →
    MRen (RElem.renameAll φ) (renderAllSame R o cs) (renderAllSame R o (SNode.renameAll φ cs))
  | [], o => by simp only [SNode.renameAll, renderAllSame]; exact MRen.ok rfl
  | c :: cs, o => by
    simp only [SNode.renameAll, renderAllSame]
    refine MRen.bind (render_rename R c none o) fun e => ?_
    exact MRen.bind (renderAllSame_rename R cs o) fun es => MRen.ok (by simp [RElem.renameAll])
theorem renderRows_rename (R : Renderers) (k : Nat) : (cs : List SNode) → (i : Nat) →
    MRen (RElem.renameAll φ) (renderRows R k i cs) (renderRows R k i (SNode.renameAll φ cs))
  | [], i => by simp only [SNode.renameAll, renderRows]; exact MRen.ok rfl
  | c :: cs, i => by
    simp only [SNode.renameAll, renderRows]
    refine MRen.bind (render_rename R c _ _) fun e => ?_
    exact MRen.bind (renderRows_rename R k cs (i + 1)) fun es => MRen.ok (by simp [RElem.renameAll])
end

theorem wrapInMRow_rename (es : List Elt) :
    wrapInMRow (Elt.renameAll φ es) = (wrapInMRow es).rename φ := by
  rcases es with _ | ⟨e, _ | ⟨e', es⟩⟩ <;>
    simp [wrapInMRow, Elt.renameAll, Elt.rename]

theorem texts_rename (t : SNode) : (t.rename φ).texts = Elt.renameAll φ t.texts := by
  cases t <;> simp [SNode.rename, SNode.texts, Elt.renameAll_map, Elt.rename]

theorem tableElts_rename (w n : Nat) : ∀ cells : List (List Elt),
    tableElts w n (cells.map (Elt.renameAll φ)) = Elt.renameAll φ (tableElts w n cells) := by
  induction n with
  | zero => intro cells; simp [tableElts, Elt.renameAll]
  | succ n ih =>
    intro cells
    cases cells with
    | nil => simp [tableElts, Elt.renameAll]
    | cons c cells =>
      have := ih ((c :: cells).drop w)
      simp only [List.map_cons, tableElts, Elt.renameAll, Elt.rename]
      rw [← List.map_cons (f := Elt.renameAll φ), ← List.map_drop, this, ← List.map_take]
      simp [Elt.renameAll_map, Elt.rename, List.map_map, Function.comp_def, ← wrapInMRow_rename]

theorem phantom_rename : phantom.rename φ = phantom := by
  simp [phantom, Elt.rename, Elt.renameAll]

mutual
theorem elements_rename (h1 : φ '⬚' = '⬚') (h2 : φ '\u00A0' = '\u00A0') :
    (e : RElem) → (e.rename φ).elements = Elt.renameAll φ e.elements
  | .mk k t ri cs => by
    have hall := elementsAll_rename h1 h2 cs
    have hlen : (RElem.renameAll φ cs).length = cs.length := by
      rw [RElem.renameAll_map, List.length_map]
    cases k with
    | nothing => simp [RElem.rename, RElem.elements, Elt.renameAll, Elt.rename, h1]
    | missing => simp [RElem.rename, RElem.elements, Elt.renameAll, Elt.rename, h2]
    | text tag => simp [RElem.rename, RElem.elements, Elt.renameAll, Elt.rename, texts_rename]
    | symbol tag st => simp [RElem.rename, RElem.elements, Elt.renameAll, Elt.rename, texts_rename]
    | container tag =>
      simp [RElem.rename, RElem.elements, Elt.renameAll_map, Elt.rename, hall, Function.comp_def,
        ← wrapInMRow_rename]
    | rows tag =>
      simp [RElem.rename, RElem.elements, Elt.renameAll_map, Elt.rename, hall, Function.comp_def,
        ← wrapInMRow_rename, phantom_rename]
    | root tag =>
      simp [RElem.rename, RElem.elements, Elt.renameAll_map, Elt.rename, hall, Function.comp_def,
        ← wrapInMRow_rename, phantom_rename]
    | table =>
      have hw := tableElts_rename (φ := φ) t.width cs.length (elementsAll cs)
      simp only [RElem.rename, RElem.elements, hall, SNode.rename_width, hlen, hw, Elt.renameAll,
        phantom_rename, Elt.rename]
theorem elementsAll_rename (h1 : φ '⬚' = '⬚') (h2 : φ '\u00A0' = '\u00A0') :
    (es : List RElem) → elementsAll (RElem.renameAll φ es) = (elementsAll es).map (Elt.renameAll φ)
  | [] => by simp [RElem.renameAll, elementsAll]
  | e :: es => by
    simp [RElem.renameAll, elementsAll, elements_rename h1 h2 e, elementsAll_rename h1 h2 es]
end

mutual
theorem Node.rename_wf : (n : Node) → (n.rename φ).wf = n.wf
  | .symbol _ => by simp [Node.rename, Node.wf]
  | .container _ cells _ => by
    have : (renameCells φ cells).length = cells.length := by rw [renameCells_map, List.length_map]
    simp [Node.rename, Node.wf, renameCells_wf cells, this]
theorem renameRow_wf : (r : List Node) → rowWf (renameRow φ r) = rowWf r
  | [] => by simp [renameRow]
  | n :: ns => by simp [renameRow, rowWf, Node.rename_wf n, renameRow_wf ns]
theorem renameCells_wf : (r : List (List Node)) → cellsWf (renameCells φ r) = cellsWf r
  | [] => by simp [renameCells]
  | r :: rs => by simp [renameCells, cellsWf, renameRow_wf r, renameCells_wf rs]
end

theorem Std.keeps {x : Xid} {g : Grammar} {m : NameMap} (S : Std x g m) (h : Renaming x φ) :
    Keeps g φ := by
  have key : ∀ r ∈ shippedPrefixes ++ shippedAtoms ++ shippedInfixes ++ shippedPostfixes,
      ∀ d ∈ (match r.parser with
        | .symbols ss _ => ss.flatten
        | .brackets _ o c => o ++ c
        | .emptyBrackets _ o c => o ++ c
        | _ => []), d ∈ tokenChars := by decide +kernel
  have hu : g.used = shippedPrefixes ++ shippedAtoms ++ shippedInfixes ++ shippedPostfixes := by
    rw [Grammar.used, S.prefixes, S.atoms, S.infixes, S.postfixes]
  refine ⟨?_, ?_, h.digit, ?_, ?_, ?_, ?_⟩
  · rw [S.start]; exact h.start
  · rw [S.continue_]; exact h.continue_
  · intro d hd
    refine h.token d ?_
    rcases hd with rfl | rfl | rfl | rfl <;> decide +kernel
  · intro r hr ss ty hp s hs d hd
    rw [hu] at hr
    have := key r hr d
    rw [hp] at this
    exact h.token d (this (List.mem_flatten.2 ⟨s, hs, hd⟩))
  · intro r hr n o c hp d hd
    rw [hu] at hr
    have := key r hr d
    rw [hp] at this
    exact h.token d (this hd)
  · intro r hr n o c hp d hd
    rw [hu] at hr
    have := key r hr d
    rw [hp] at this
    exact h.token d (this hd)

end Aftermath

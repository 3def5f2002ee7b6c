import Verif.Spec.MathML
import Verif.Proof.Basic

/-! # Lemmas about reading MathML -/

namespace Aftermath

variable {b : Browser}

theorem wrapInRow_eq (l : Layout) : wrapInRow l = l.items.flatMap LayoutItem.nodes := by
  rcases l with ⟨_ | _⟩ | _ <;> simp [wrapInRow, Layout.items, LayoutItem.nodes]

theorem wrap_many (ls : List Layout) :
    wrapInRow (.many (ls.flatMap Layout.items)) = (ls.map wrapInRow).flatten := by
  rw [wrapInRow_eq, ← List.flatMap_def]
  induction ls with
  | nil => rfl
  | cons l ls ih =>
    simp only [Layout.items, List.flatMap_cons, List.flatMap_append, wrapInRow_eq l] at ih ⊢
    rw [ih]

theorem wrap_append (l : Layout) (is : List LayoutItem) :
    wrapInRow (.many (l.items ++ is)) = wrapInRow l ++ is.flatMap LayoutItem.nodes := by
  simp [wrapInRow_eq, Layout.items]

theorem nodes_map_node (r : Row) : (r.map LayoutItem.node).flatMap LayoutItem.nodes = r := by
  induction r with
  | nil => rfl
  | cons n r ih => simp [LayoutItem.nodes, ih]

theorem wrap_append' (r : Row) (is : List LayoutItem) :
    wrapInRow (.many (r.map .node ++ is)) = r ++ is.flatMap LayoutItem.nodes := by
  simp [wrapInRow_eq, Layout.items, nodes_map_node]

theorem wrap_symbols (text : Str) :
    (b.symbols text).flatMap LayoutItem.nodes =
      (b.split (b.trim text)).map fun s => .symbol (b.nfd s) := by
  unfold Browser.symbols
  induction b.split (b.trim text) with
  | nil => rfl
  | cons s r ih =>
    rw [List.map_cons, List.flatMap_cons, ih]
    rfl

/-- The elements that are read when `d` is read, in order. -/
def kids : Dom → List Dom
  | .elem .math _ cs | .elem .mrow _ cs | .elem .mtd _ cs | .elem .msqrt _ cs => cs
  | .elem .semantics _ cs => cs.take 1
  | .elem .mroot _ cs => if cs.length = 2 then cs.reverse else []
  | .elem .mfrac _ cs | .elem .munder _ cs | .elem .mover _ cs =>
    if cs.length = 2 then cs else []
  | .elem .munderover _ cs => if cs.length = 3 then cs else []
  | .elem .msub _ cs | .elem .msup _ cs => if cs.length = 2 then cs else cs.take 1
  | .elem .msubsup _ cs => if cs.length = 3 then cs else cs.take 1
  | .elem .mtable _ cs => if isTable cs then cs.flatMap Dom.children else []
  | _ => []

/-- The errors of the element itself. -/
def own : Dom → List ImportError
  | .elem .math _ _ | .elem .mrow _ _ | .elem .mtd _ _ | .elem .msqrt _ _ => []
  | .elem .mtext _ _ | .elem .ms _ _ | .elem .mi _ _ | .elem .mn _ _ | .elem .mo _ _
  | .elem .mstyle _ _ => []
  | .elem .semantics _ cs => if cs = [] then [.unknownElement .semantics] else []
  | .elem .mroot _ cs => if cs.length = 2 then [] else [.expectedChildren 2 .mroot]
  | .elem .mfrac _ cs => if cs.length = 2 then [] else [.expectedChildren 2 .mfrac]
  | .elem .munder _ cs => if cs.length = 2 then [] else [.expectedChildren 2 .munder]
  | .elem .mover _ cs => if cs.length = 2 then [] else [.expectedChildren 2 .mover]
  | .elem .msub _ cs => if cs.length = 2 then [] else [.expectedChildren 2 .msub]
  | .elem .msup _ cs => if cs.length = 2 then [] else [.expectedChildren 2 .msup]
  | .elem .msubsup _ cs => if cs.length = 3 then [] else [.expectedChildren 3 .msubsup]
  | .elem .munderover _ cs => if cs.length = 3 then [] else [.expectedChildren 3 .munderover]
  | .elem .mtable _ cs => if isTable cs then [] else [.unexpectedChildren]
  | .elem .mtr _ _ => [.unknownElement .mtr]
  | .elem (.other n) _ _ => [.unknownElement (.other n)]

/-- The cells of a table from the layouts of its cells, one row after the other. -/
def chunk (w : Nat) : List Dom → List Layout → List Row
  | [], _ => []
  | r :: rows, ls => padCells w ((ls.take r.children.length).map wrapInRow) ++
      chunk w rows (ls.drop r.children.length)

/-- The layout of an element from those of the elements read. -/
def build (b : Browser) : Dom → List Layout → Layout
  | .elem .math _ _, ls | .elem .mrow _ _, ls | .elem .mtd _ _, ls =>
    .one (.row (wrapInRow (.many (ls.flatMap Layout.items))))
  | .elem .semantics _ _, [l] => l
  | .elem .mtext text _, _ | .elem .ms text _, _ =>
    .many (.node (b.symbol ['"']) :: b.symbols text ++ [.node (b.symbol ['"'])])
  | .elem .mi text _, _ | .elem .mn text _, _ | .elem .mo text _, _ => .many (b.symbols text)
  | .elem .mfrac _ _, [lx, ly] => .one (.node (.fraction (wrapInRow lx) (wrapInRow ly)))
  | .elem .msqrt _ _, ls => .one (.node (.root (wrapInRow (.one (.node (b.symbol ['2']))))
      (wrapInRow (.many (ls.flatMap Layout.items)))))
  | .elem .mroot _ _, [ly, lx] => .one (.node (.root (wrapInRow ly) (wrapInRow lx)))
  | .elem .msub _ _, [lx, ly] => .many (lx.items ++ [.node (.sub (wrapInRow ly))])
  | .elem .msup _ _, [lx, ly] => .many (lx.items ++ [.node (.sup (wrapInRow ly))])
  | .elem .msubsup _ _, [lx, ly, lz] =>
    .many (lx.items ++ [.node (.sub (wrapInRow ly)), .node (.sup (wrapInRow lz))])
  | .elem .munder _ _, [lx, ly] => .many ((wrapInRow lx).map .node ++ [.node (.sub (wrapInRow ly))])
  | .elem .mover _ _, [lx, ly] => .many ((wrapInRow lx).map .node ++ [.node (.sup (wrapInRow ly))])
  | .elem .munderover _ _, [lx, ly, lz] => .many ((wrapInRow lx).map .node ++
      [.node (.sub (wrapInRow ly)), .node (.sup (wrapInRow lz))])
  | .elem .mtable _ rows, ls => if isTable rows then
      .one (.node (mlTable (chunk (tableWidth rows) rows ls) (tableWidth rows)))
      else b.errorSymbol
  | .elem .mstyle _ _, _ => .many []
  | _, _ => b.errorSymbol

theorem toLayouts_append (xs ys : List Dom) :
    toLayouts b (xs ++ ys) = (toLayouts b xs >>= fun r => toLayouts b ys >>= fun s =>
      .ok (r.1 ++ s.1, r.2 ++ s.2)) := by
  induction xs with
  | nil =>
    simp only [List.nil_append, toLayouts, M.ok_bind]
    cases toLayouts b ys <;> rfl
  | cons x xs ih =>
    simp only [List.cons_append, toLayouts, ih]
    cases toLayout b x with
    | error e => rfl
    | ok r =>
      simp only [M.ok_bind]
      cases toLayouts b xs with
      | error e => rfl
      | ok s =>
        simp only [M.ok_bind]
        cases toLayouts b ys with
        | error e => rfl
        | ok t => simp [M.ok_bind]

theorem toLayouts_length {ds : List Dom} {ls es} (h : toLayouts b ds = .ok (ls, es)) :
    ls.length = ds.length := by
  induction ds generalizing ls es with
  | nil => simp only [toLayouts] at h; cases h; rfl
  | cons d ds ih =>
    simp only [toLayouts] at h
    cases h1 : toLayout b d with
    | error e => rw [h1] at h; cases h
    | ok r =>
      rw [h1] at h
      simp only [M.ok_bind] at h
      cases h2 : toLayouts b ds with
      | error e => rw [h2] at h; cases h
      | ok s =>
        rw [h2] at h
        cases h
        simp [ih h2]

theorem toTableCells_eq (w : Nat) (rows : List Dom) :
    toTableCells b w rows = (toLayouts b (rows.flatMap Dom.children) >>= fun r =>
      .ok (chunk w rows r.1, r.2)) := by
  induction rows with
  | nil => simp [toTableCells, toLayouts, chunk, M.ok_bind]
  | cons r rows ih =>
    obtain ⟨t, text, cs⟩ := r
    simp only [toTableCells, List.flatMap_cons, Dom.children, toLayouts_append, ih]
    cases h : toLayouts b cs with
    | error e => rfl
    | ok r =>
      obtain ⟨ls, es⟩ := r
      simp only [M.ok_bind]
      cases toLayouts b (rows.flatMap Dom.children) with
      | error e => rfl
      | ok s =>
        simp only [M.ok_bind, chunk, Dom.children, ← toLayouts_length h, List.take_left',
          List.drop_left']

instance (d : Dom) : Decidable d.BareScript := by
  unfold Dom.BareScript
  have : Decidable (d.children = []) :=
    decidable_of_iff (d.children.isEmpty = true) List.isEmpty_iff
  infer_instance

/-- One step of reading. -/
theorem toLayout_step (d : Dom) : toLayout b d =
    if d.BareScript then .error .unwrapNone else
      toLayouts b (kids d) >>= fun r => .ok (build b d r.1, r.2 ++ own d) := by
  obtain ⟨t, text, cs⟩ := d
  have e1 : ∀ x : M (List Layout × List ImportError), ∀ f : List Layout → Layout,
      (x >>= fun r => Except.ok (f r.1, r.2)) =
      (x >>= fun r => Except.ok (f r.1, r.2 ++ [])) := by
    intro x f; cases x <;> simp
  cases t
  case math | mrow | mtd | msqrt => 
    simp only [toLayout, Dom.BareScript, Dom.tag, kids, build, own]
    simp
  case mtext | ms | mi | mn | mo | mstyle | mtr | other =>
    simp [toLayout, Dom.BareScript, Dom.tag, kids, build, own, toLayouts, M.ok_bind]
  case semantics =>
    rcases cs with _ | ⟨x, cs⟩
    · simp [toLayout, Dom.BareScript, Dom.tag, kids, build, own, toLayouts, M.ok_bind]
    · simp only [toLayout, Dom.BareScript, Dom.tag, kids, own, toLayouts, List.take]
      cases toLayout b x <;> simp [build, M.ok_bind]
  case mfrac | munder | mover | mroot =>
    rcases cs with _ | ⟨x, _ | ⟨y, _ | ⟨z, cs⟩⟩⟩ <;>
    simp only [toLayout, Dom.BareScript, Dom.tag, kids, own, Dom.children] <;>
    simp [build, M.ok_bind, toLayouts]
  case munderover =>
    rcases cs with _ | ⟨x, _ | ⟨y, _ | ⟨z, _ | ⟨z', cs⟩⟩⟩⟩ <;>
    simp only [toLayout, Dom.BareScript, Dom.tag, kids, own, Dom.children] <;>
    simp [build, M.ok_bind, toLayouts]
  case msub | msup =>
    rcases cs with _ | ⟨x, _ | ⟨y, _ | ⟨z, cs⟩⟩⟩ <;>
    simp only [toLayout, Dom.BareScript, Dom.tag, kids, own, Dom.children] <;>
    simp [build, M.ok_bind, toLayouts]
  case msubsup =>
    rcases cs with _ | ⟨x, _ | ⟨y, _ | ⟨z, _ | ⟨z', cs⟩⟩⟩⟩ <;>
    simp only [toLayout, Dom.BareScript, Dom.tag, kids, own, Dom.children] <;>
    simp [build, M.ok_bind, toLayouts]
  case mtable =>
    simp only [toLayout, Dom.BareScript, Dom.tag, kids, build, own, toTableCells_eq]
    by_cases h : isTable cs
    · simp only [h, if_true]
      cases toLayouts b (cs.flatMap Dom.children) <;> simp [M.ok_bind]
    · simp [h, toLayouts, M.ok_bind]

/-! ## What is read, and what it complains about -/

theorem isTable_iff {t text cs} : isTable cs = true ↔ (Dom.elem t text cs).Tabular := by
  simp [isTable, Dom.Tabular, Dom.children]

theorem mem_own (d : Dom) (e : ImportError) : e ∈ own d ↔ d.Complains e := by
  obtain ⟨t, text, cs⟩ := d
  constructor
  · intro h
    cases t
    case mtable =>
      simp only [own] at h
      split at h
      · cases h
      · rename_i hn
        rw [isTable_iff (t := .mtable) (text := text)] at hn
        rw [List.mem_singleton.1 h]
        exact .table rfl hn
    case semantics =>
      simp only [own] at h
      split at h
      · rename_i hn
        rw [List.mem_singleton.1 h]
        exact .semantics rfl hn
      · cases h
    case mtr => rw [List.mem_singleton.1 h]; exact .mtr rfl
    case other => rw [List.mem_singleton.1 h]; exact .other rfl
    case mfrac | mroot | munder | mover | munderover | msub | msup | msubsup =>
      simp only [own] at h
      split at h
      · cases h
      · rename_i hn
        rw [List.mem_singleton.1 h]
        exact Dom.Complains.arity (d := .elem _ text cs) rfl hn
    all_goals simp [own] at h
  · intro h
    cases h with
    | arity h1 h2 =>
      simp only [Dom.tag, Dom.children] at h1 h2 ⊢
      cases t <;> simp only [Tag.arity, Option.some.injEq, reduceCtorEq] at h1 <;> subst h1 <;>
        simp [own, h2]
    | table h1 h2 =>
      cases h1
      rw [← isTable_iff] at h2
      simp [own, h2]
    | semantics h1 h2 => cases h1; cases h2; simp [own]
    | mtr h1 => cases h1; simp [own]
    | other h1 => cases h1; simp [own]

theorem looksAt_iff (d c : Dom) : d.LooksAt c ↔ c ∈ kids d := by
  obtain ⟨t, text, cs⟩ := d
  constructor
  · intro h
    cases h with
    | group h1 h2 => rcases h1 with h1 | h1 | h1 | h1 <;> cases h1 <;> exact h2
    | semantics h1 h2 =>
      cases h1
      rcases cs with _ | ⟨x, cs⟩
      · cases h2
      · cases h2; simp [kids]
    | fixed h1 h2 h3 =>
      simp only [Dom.tag, Dom.children] at h1 h2 h3
      cases t <;> simp only [Tag.arity, Option.some.injEq, reduceCtorEq] at h1 <;> subst h1 <;>
        simp [kids, h2, h3]
    | base h1 h2 =>
      rcases cs with _ | ⟨x, cs⟩
      · cases h2
      · cases h2
        rcases h1 with h1 | h1 | h1 <;> cases h1 <;> simp only [kids] <;> split <;> simp
    | cell h1 h2 h3 h4 =>
      cases h1
      simp only [kids, isTable_iff.2 h2, if_true]
      exact List.mem_flatMap.2 ⟨_, h3, h4⟩
  · intro h
    cases t
    case math => exact .group (.inl rfl) h
    case mrow => exact .group (.inr (.inl rfl)) h
    case mtd => exact .group (.inr (.inr (.inl rfl))) h
    case msqrt => exact .group (.inr (.inr (.inr rfl))) h
    case semantics =>
      rcases cs with _ | ⟨x, cs⟩
      · cases h
      · rw [List.mem_singleton.1 h]; exact .semantics rfl rfl
    case mtable =>
      simp only [kids] at h
      split at h
      · rename_i ht
        obtain ⟨r, h1, h2⟩ := List.mem_flatMap.1 h
        exact .cell rfl (isTable_iff.1 ht) h1 h2
      · cases h
    case mroot =>
      simp only [kids] at h
      split at h
      · exact .fixed (n := 2) rfl ‹_› (List.mem_reverse.1 h)
      · cases h
    case mfrac | munder | mover | munderover =>
      simp only [kids] at h
      split at h
      · exact .fixed (d := .elem _ text cs) rfl ‹_› h
      · cases h
    case msub | msup | msubsup =>
      simp only [kids] at h
      split at h
      · exact .fixed (d := .elem _ text cs) rfl ‹_› h
      · rcases cs with _ | ⟨x, cs⟩
        · cases h
        · rw [List.mem_singleton.1 h]; exact .base (by simp [Dom.tag]) rfl
    all_goals cases h

theorem sizeOf_kids {d c : Dom} (h : c ∈ kids d) : sizeOf c < sizeOf d := by
  have key : ∀ {cs : List Dom} {x : Dom} {t text}, x ∈ cs → sizeOf x < sizeOf (Dom.elem t text cs) := by
    intro cs x t text hx
    have := List.sizeOf_lt_of_mem hx
    simp only [Dom.elem.sizeOf_spec]
    omega
  rw [← looksAt_iff] at h
  obtain ⟨t, text, cs⟩ := d
  cases h with
  | group _ h2 => exact key h2
  | semantics _ h2 => exact key (List.mem_of_getElem? h2)
  | fixed _ _ h3 => exact key h3
  | base _ h2 => exact key (List.mem_of_getElem? h2)
  | @cell r _ _ _ h3 h4 =>
    obtain ⟨t', text', cs'⟩ := r
    exact Nat.lt_trans (key h4) (key h3)

/-! ## The result of reading -/

theorem toLayouts_error {ds : List Dom} : (∃ e, toLayouts b ds = .error e) ↔
    ∃ d ∈ ds, ∃ e, toLayout b d = .error e := by
  induction ds with
  | nil => simp [toLayouts]
  | cons d ds ih =>
    simp only [toLayouts, List.mem_cons, exists_eq_or_imp, ← ih]
    cases toLayout b d with
    | error e => simp [M.error_bind]
    | ok r => 
      cases toLayouts b ds <;> simp [M.ok_bind, M.error_bind]

theorem toLayouts_ok {ds : List Dom} {ls es} (h : toLayouts b ds = .ok (ls, es)) :
    ∃ rs : List (Layout × List ImportError), ls = rs.map Prod.fst ∧ es = (rs.map Prod.snd).flatten ∧
      List.Forall₂ (fun d r => toLayout b d = .ok r) ds rs := by
  induction ds generalizing ls es with
  | nil => simp only [toLayouts] at h; cases h; exact ⟨[], rfl, rfl, .nil⟩
  | cons d ds ih =>
    simp only [toLayouts] at h
    cases h1 : toLayout b d with
    | error e => rw [h1] at h; cases h
    | ok r =>
      rw [h1] at h
      simp only [M.ok_bind] at h
      cases h2 : toLayouts b ds with
      | error e => rw [h2] at h; cases h
      | ok s =>
        rw [h2] at h
        cases h
        obtain ⟨rs, e1, e2, e3⟩ := ih h2
        exact ⟨r :: rs, by simp [e1], by simp [e2], .cons h1 e3⟩

/-- Reading throws exactly when it gets to a script without children. -/
theorem toLayout_error (d : Dom) : (∃ e, toLayout b d = .error e) ↔
    ∃ d', d.Reads d' ∧ d'.BareScript := by
  rw [toLayout_step]
  by_cases hb : d.BareScript
  · simp only [hb, if_true]
    exact ⟨fun _ => ⟨d, .refl d, hb⟩, fun _ => ⟨_, rfl⟩⟩
  · simp only [hb, if_false]
    constructor
    · rintro ⟨e, h⟩
      have : ∃ e, toLayouts b (kids d) = .error e := by
        cases h1 : toLayouts b (kids d) with
        | error e => exact ⟨e, rfl⟩
        | ok r => rw [h1] at h; cases h
      obtain ⟨c, hc, h2⟩ := toLayouts_error.1 this
      have := sizeOf_kids hc
      obtain ⟨d', h3, h4⟩ := (toLayout_error c).1 h2
      exact ⟨d', .step ((looksAt_iff d c).2 hc) h3, h4⟩
    · rintro ⟨d', h1, h2⟩
      cases h1 with
      | refl => exact absurd h2 hb
      | step h3 h4 =>
        rename_i c
        have hc := (looksAt_iff d c).1 h3
        have := sizeOf_kids hc
        obtain ⟨e, h5⟩ := toLayouts_error.2 ⟨c, hc, (toLayout_error c).2 ⟨d', h4, h2⟩⟩
        exact ⟨e, by rw [h5]; rfl⟩
termination_by sizeOf d

/-- The errors are those of the elements that are read. -/
theorem toLayout_errors (d : Dom) {l es} (h : toLayout b d = .ok (l, es)) (e : ImportError) :
    e ∈ es ↔ ∃ d', d.Reads d' ∧ d'.Complains e := by
  rw [toLayout_step] at h
  by_cases hb : d.BareScript
  · simp [hb] at h
  simp only [hb, if_false] at h
  cases h1 : toLayouts b (kids d) with
  | error e => rw [h1] at h; cases h
  | ok r =>
    obtain ⟨ls, es'⟩ := r
    rw [h1] at h
    cases h
    obtain ⟨rs, e1, e2, e3⟩ := toLayouts_ok h1
    have key : e ∈ es' ↔ ∃ c ∈ kids d, ∃ d', c.Reads d' ∧ d'.Complains e := by
      subst e2
      clear h1 e1
      have hs : ∀ c ∈ kids d, sizeOf c < sizeOf d := fun c hc => sizeOf_kids hc
      revert hs e3
      generalize kids d = ks
      intro e3 hs
      induction e3 with
      | nil => simp
      | cons h1 h2 ih =>
        rename_i c r cs rs
        have := hs c (List.mem_cons_self ..)
        have h3 := toLayout_errors c h1 e
        have h4 := ih (fun x hx => hs x (List.mem_cons_of_mem _ hx))
        rw [List.map_cons, List.flatten_cons, List.mem_append]
        exact (or_congr h3 h4).trans (by simp)
    rw [List.mem_append, key, mem_own]
    constructor
    · rintro (⟨c, h1, d', h2, h3⟩ | h1)
      · exact ⟨d', .step ((looksAt_iff d c).2 h1) h2, h3⟩
      · exact ⟨d, .refl d, h1⟩
    · rintro ⟨d', h1, h2⟩
      cases h1 with
      | refl => exact .inr h2
      | step h3 h4 => exact .inl ⟨_, (looksAt_iff d _).1 h3, d', h4, h2⟩
termination_by sizeOf d

end Aftermath

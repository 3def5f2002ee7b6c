import Verif.Proof.Expression

/-! # The names of the nodes that the parser makes -/

namespace Aftermath

variable {g : Grammar} {P : Nat → Prop}

/-- The names of all nodes of the tree satisfy `P`. -/
def Named (P : Nat → Prop) (t : SNode) : Prop := ∀ n ∈ t.names, P n

/-- The names given to nodes that are not errors satisfy `P`. -/
structure Grammar.Gives (g : Grammar) (P : Nat → Prop) : Prop where
  builtIn : ∀ n ∈ [g.builtIn.operator, g.builtIn.whitespaces, g.builtIn.whitespace, g.builtIn.sub,
    g.builtIn.sup], P n
  rules : ∀ r ∈ g.modules.flatten, r.role ≠ none → P r.name
  brackets : ∀ r ∈ g.modules.flatten, r.role ≠ none → ∀ n o c,
    (r.parser = .brackets n o c ∨ r.parser = .emptyBrackets n o c) → P n

theorem mem_treesNames {n : Nat} : ∀ {ts : List SNode}, n ∈ treesNames ts ↔ ∃ t ∈ ts, n ∈ t.names
  | [] => by simp [treesNames]
  | t :: ts => by simp [treesNames, mem_treesNames (ts := ts)]

theorem named_leaf {n lo hi : Nat} {ty : LeafType} {ss : List Str} (h : P n) :
    Named P (.leaf n lo hi ty ss) := by
  intro m hm
  simp only [SNode.names, List.mem_singleton] at hm
  rw [hm]; exact h

theorem named_children {n lo hi : Nat} {cs : List SNode} (h : P n)
    (hc : ∀ c ∈ cs, Named P c) : Named P (.children n lo hi cs) := by
  intro m hm
  simp only [SNode.names, List.mem_cons, mem_treesNames] at hm
  rcases hm with rfl | ⟨c, h1, h2⟩
  · exact h
  · exact hc c h1 m h2

theorem named_newRows {n lo hi w : Nat} {cs : List SNode} (h : P n)
    (hc : ∀ c ∈ cs, Named P c) : Named P (.newRows n lo hi cs w) := by
  intro m hm
  simp only [SNode.names, List.mem_cons, mem_treesNames] at hm
  rcases hm with rfl | ⟨c, h1, h2⟩
  · exact h
  · exact hc c h1 m h2

/-- All trees inside are named by `P`. -/
def SChildren.Named (P : Nat → Prop) : SChildren → Prop
  | .newRows cells _ => ∀ c ∈ cells, Aftermath.Named P c
  | .children cs => ∀ c ∈ cs, Aftermath.Named P c
  | .leaf _ _ => True

theorem named_new {n lo hi : Nat} {c : SChildren} {t : SNode} (h : P n)
    (hc : c.Named P) (hn : SNode.new n lo hi c = .ok t) : Named P t := by
  cases c with
  | leaf ty ss => cases hn; exact named_leaf h
  | newRows cs w => cases hn; exact named_newRows h hc
  | children cs => rw [new_eq hn]; exact named_children h hc

theorem named_spaces (ha : g.Gives P) {row : Row} {pos p : Nat} {o : Option SNode}
    (h : parseSpaces g row pos = .ok (o, p)) : ∀ t, o = some t → Named P t := by
  intro t ht
  subst ht
  unfold parseSpaces at h
  simp only at h
  split at h
  · cases h
  · obtain ⟨u, hu, h⟩ := M.bind_eq_ok.1 h
    cases h
    exact named_new (ha.builtIn _ (by simp)) (c := .leaf _ _) trivial hu

theorem leadingSpaces_eq : ∀ (l : List Node),
    (symRun (fun s => s == [' ']) l).length = leadingSpaces l
  | [] => rfl
  | .container _ _ _ :: _ => rfl
  | .symbol s :: rest => by
    rw [symRun]
    by_cases h : s = [' ']
    · subst h
      rw [leadingSpaces]
      simp [leadingSpaces_eq rest]
    · have h' : (s == [' ']) = false := by simpa using h
      simp only [h', Bool.false_eq_true, if_false, List.length_nil]
      rw [leadingSpaces.eq_def]
      split
      · rename_i heq
        simp only [List.cons.injEq, Node.symbol.injEq] at heq
        exact absurd heq.1 h
      · rfl

theorem parseSpaces_pos {row : Row} {pos p : Nat} {o : Option SNode}
    (h : parseSpaces g row pos = .ok (o, p)) : p = pos + leadingSpaces (row.drop pos) := by
  unfold parseSpaces at h
  simp only at h
  split at h
  · rename_i he
    cases h
    rw [← leadingSpaces_eq, List.isEmpty_iff.1 he]
    rfl
  · obtain ⟨u, hu, h⟩ := M.bind_eq_ok.1 h
    cases h
    rw [leadingSpaces_eq]

theorem named_whitespaces (ha : g.Gives P) {sb sa : Option SNode} {t t' : SNode}
    {lo hi : Nat} (hb : ∀ u, sb = some u → Named P u) (ht : Named P t)
    (hs : ∀ u, sa = some u → Named P u)
    (h : g.builtIn.whitespacesNode sb t sa lo hi = .ok t') : Named P t' := by
  have hn : P g.builtIn.whitespaces := ha.builtIn _ (by simp)
  unfold BuiltIn.whitespacesNode at h
  cases sb with
  | none =>
    cases sa with
    | none => cases h; exact ht
    | some b =>
      refine named_new hn (c := .children _) (fun c hc => ?_) h
      rcases List.mem_cons.1 hc with rfl | hc
      · exact ht
      · rw [List.mem_singleton.1 hc]; exact hs b rfl
  | some a =>
    cases sa with
    | none =>
      refine named_new hn (c := .children _) (fun c hc => ?_) h
      rcases List.mem_cons.1 hc with rfl | hc
      · exact hb c rfl
      · rw [List.mem_singleton.1 hc]; exact ht
    | some b =>
      refine named_new hn (c := .children _) (fun c hc => ?_) h
      rcases List.mem_cons.1 hc with rfl | hc
      · exact hb c rfl
      · rcases List.mem_cons.1 hc with rfl | hc
        · exact ht
        · rw [List.mem_singleton.1 hc]; exact hs b rfl

/-- The cells of all containers in the row are named by `P`. -/
def CellsNamed (P : Nat → Prop) (call : Rec) (row : Row) : Prop :=
  ∀ (i : Nat) v cells w, row[i]? = some (Node.container v cells w) → ∀ c ∈ cells, ∀ t,
    parseWhole call c = .ok t → Named P t

theorem named_cells {call : Rec} : ∀ {cells : List Row} {ts : List SNode},
    (∀ c ∈ cells, ∀ t, parseWhole call c = .ok t → Named P t) →
    parseCells call cells = .ok ts → ∀ t ∈ ts, Named P t
  | [], ts, _, h => by cases h; exact nofun
  | r :: rs, ts, hc, h => by
    rw [parseCells] at h
    obtain ⟨t, ht, h⟩ := M.bind_eq_ok.1 h
    obtain ⟨ts', hts, h⟩ := M.bind_eq_ok.1 h
    cases h
    intro u hu
    rcases List.mem_cons.1 hu with rfl | hu
    · exact hc r (List.mem_cons_self ..) u ht
    · exact named_cells (fun c hc' => hc c (List.mem_cons_of_mem _ hc')) hts u hu

theorem named_container {call : Rec} {row : Row} (hcells : CellsNamed P call row) {v : Variant}
    {pos p : Nat} {c : SChildren} (h : parseContainer call v row pos = .ok (some (c, p))) :
    c.Named P := by
  unfold parseContainer at h
  cases hr : row[pos]? with
  | none => rw [hr] at h; cases h
  | some n =>
    rw [hr] at h
    cases n with
    | symbol s => cases h
    | container v' cells w =>
      simp only at h
      split at h
      · obtain ⟨ts, hts, h⟩ := M.bind_eq_ok.1 h
        obtain ⟨gr, hgr, h⟩ := M.bind_eq_ok.1 h
        cases h
        unfold GridVec.fromOneDimensional at hgr
        have hv : gr.values = ts := by
          split at hgr
          · cases hgr
          · split at hgr
            · cases hgr; rfl
            · cases hgr
        simp only [SChildren.Named, hv]
        exact named_cells (fun c hc t ht => hcells pos v' cells w hr c hc t ht) hts
      · cases h

theorem named_token {call : Rec} {row : Row} (hcells : CellsNamed P call row)
    {tp : TokenParser} (hbr : ∀ n o c, (tp = .brackets n o c ∨ tp = .emptyBrackets n o c) →
      P n) {pos p : Nat} {c : SChildren}
    (hin : ∀ n o cl, tp = .brackets n o cl → pos + 1 ≤ row.length → ∀ res q,
      call row (pos + 1) (0, .weak) (.sym cl) = .ok (res, q) → Named P res.node)
    (h : tokenParse call g tp row pos = .ok (some (c, p))) : c.Named P := by
  cases tp with
  | symbols ss ty =>
    simp only [tokenParse, Except.ok.injEq, Option.map_eq_some_iff, Prod.mk.injEq] at h
    obtain ⟨_, _, rfl, _⟩ := h
    trivial
  | «variable» =>
    simp only [tokenParse, Except.ok.injEq] at h
    unfold parseVariable at h
    obtain ⟨⟨a, p1⟩, _, h⟩ := Option.bind_eq_some_iff.1 h
    cases h
    trivial
  | number =>
    simp only [tokenParse, Except.ok.injEq] at h
    unfold parseNumber at h
    obtain ⟨⟨a, p1⟩, _, h⟩ := Option.bind_eq_some_iff.1 h
    cases hf : parseFractional row p1 with
    | none => simp only [hf] at h; cases h; trivial
    | some x => simp only [hf] at h; cases h; trivial
  | string =>
    simp only [tokenParse, Except.ok.injEq] at h
    unfold parseString at h
    obtain ⟨⟨a, p1⟩, _, h⟩ := Option.bind_eq_some_iff.1 h
    obtain ⟨⟨b, p2⟩, _, h⟩ := Option.bind_eq_some_iff.1 h
    cases h
    trivial
  | container v => exact named_container hcells h
  | emptyBrackets n o cl =>
    simp only [tokenParse] at h
    unfold parseEmptyBrackets at h
    cases h1 : selectSym (fun s => s == o) row pos with
    | none => rw [h1] at h; cases h
    | some x =>
      obtain ⟨l, p1⟩ := x
      simp only [h1] at h
      cases h2 : selectSym (fun s => s == cl) row p1 with
      | none => rw [h2] at h; cases h
      | some y =>
        obtain ⟨r, p2⟩ := y
        simp only [h2, new_leaf, M.ok_bind] at h
        cases h
        have hn := hbr n o cl (.inr rfl)
        intro c hc
        rcases List.mem_cons.1 hc with rfl | hc
        · exact named_leaf hn
        · rw [List.mem_singleton.1 hc]; exact named_leaf hn
  | brackets n o cl =>
    simp only [tokenParse] at h
    unfold parseBrackets at h
    cases h1 : selectSym (fun s => s == o) row pos with
    | none => rw [h1] at h; cases h
    | some x =>
      obtain ⟨l, p1⟩ := x
      obtain ⟨hs, -, -, rfl⟩ := selectSym_spec h1
      simp only [h1] at h
      obtain ⟨⟨res, p2⟩, hcall, h⟩ := M.bind_eq_ok.1 h
      have hres := hin n o cl rfl hs.le res p2 hcall
      cases h2 : selectSym (fun s => s == cl) row p2 with
      | none => simp only [h2] at h; cases h
      | some y =>
        obtain ⟨r, p3⟩ := y
        simp only [h2, new_leaf, M.ok_bind] at h
        cases h
        have hn := hbr n o cl (.inl rfl)
        intro c hc
        rcases List.mem_cons.1 hc with rfl | hc
        · exact named_leaf hn
        · rcases List.mem_cons.1 hc with rfl | hc
          · exact hres
          · rw [List.mem_singleton.1 hc]; exact named_leaf hn

theorem named_script (ha : g.Gives P) {call : Rec} {row : Row} (hcells : CellsNamed P call row)
    {v : Variant} {pos p : Nat} {t : SNode}
    (h : parseScript call g v row pos = .ok (some (t, p))) : Named P t := by
  unfold parseScript at h
  obtain ⟨o, ho, h⟩ := M.bind_eq_ok.1 h
  cases o with
  | none => cases h
  | some x =>
    obtain ⟨c, p1⟩ := x
    obtain ⟨node, hnode, h⟩ := M.bind_eq_ok.1 h
    obtain ⟨⟨sa, p2⟩, hsa, h⟩ := M.bind_eq_ok.1 h
    obtain ⟨t', ht', h⟩ := M.bind_eq_ok.1 h
    cases h
    exact named_whitespaces ha (fun _ h => by cases h)
      (named_new (ha.builtIn _ (by simp)) (named_container hcells ho) hnode)
      (named_spaces ha hsa) ht'

theorem named_postfix {name : Nat} {op l t : SNode} (hn : P name)
    (ho : Named P op) (hl : Named P l) (h : buildPostfix name op l = .ok t) :
    Named P t := by
  refine named_new hn (c := .children _) (fun c hc => ?_) h
  rcases List.mem_cons.1 hc with rfl | hc
  · exact hl
  · rw [List.mem_singleton.1 hc]; exact ho

theorem named_scripts (ha : g.Gives P) {call : Rec} {row : Row} (hcells : CellsNamed P call row) :
    ∀ (n : Nat) {t : SNode} {pos : Nat} {t' : SNode} {p : Nat}, Named P t →
    parseScripts call g row n t pos = .ok (t', p) → Named P t'
  | 0, _, _, _, _, _, h => by cases h
  | n + 1, t, pos, t', p, ht, h => by
    unfold parseScripts at h
    obtain ⟨o, ho, h⟩ := M.bind_eq_ok.1 h
    cases o with
    | some x =>
      obtain ⟨s, p1⟩ := x
      obtain ⟨u, hu, h⟩ := M.bind_eq_ok.1 h
      exact named_scripts ha hcells n (named_postfix (ha.builtIn _ (by simp))
        (named_script ha hcells ho) ht hu) h
    | none =>
      obtain ⟨o, ho, h⟩ := M.bind_eq_ok.1 h
      cases o with
      | some x =>
        obtain ⟨s, p1⟩ := x
        obtain ⟨u, hu, h⟩ := M.bind_eq_ok.1 h
        exact named_scripts ha hcells n (named_postfix (ha.builtIn _ (by simp))
          (named_script ha hcells ho) ht hu) h
      | none => cases h; exact ht

/-- A token is named by `P` if the cells in the row and the brackets of the token are. -/
theorem named_rule (ha : g.Gives P) {call : Rec} {row : Row} (hcells : CellsNamed P call row) {r : Rule}
    (hr : r ∈ g.modules.flatten) (hrole : r.role ≠ none) {pos p : Nat} {t : SNode}
    (hin : ∀ n o cl, r.parser = .brackets n o cl →
      pos + leadingSpaces (row.drop pos) + 1 ≤ row.length → ∀ res q,
      call row (pos + leadingSpaces (row.drop pos) + 1) (0, .weak) (.sym cl) = .ok (res, q) →
      Named P res.node)
    (h : ruleParse call g r row pos = .ok (some (t, p))) : Named P t := by
  unfold ruleParse at h
  obtain ⟨⟨sb, p1⟩, hsb, h⟩ := M.bind_eq_ok.1 h
  have hp1 := parseSpaces_pos hsb
  obtain ⟨o, ho, h⟩ := M.bind_eq_ok.1 h
  cases o with
  | none => cases h
  | some x =>
    obtain ⟨c, p2⟩ := x
    obtain ⟨node, hnode, h⟩ := M.bind_eq_ok.1 h
    obtain ⟨⟨sa, p3⟩, hsa, h⟩ := M.bind_eq_ok.1 h
    obtain ⟨t', ht', h⟩ := M.bind_eq_ok.1 h
    rw [← hp1] at hin
    have hname : P (tokenName g r) := by
      unfold tokenName
      split
      · exact ha.rules r hr hrole
      · exact ha.builtIn _ (by simp)
    have hfree := named_whitespaces ha (named_spaces ha hsb)
      (named_new hname (named_token hcells (ha.brackets r hr hrole) hin ho) hnode)
      (named_spaces ha hsa) ht'
    split at h
    · obtain ⟨⟨u, p4⟩, hu, h⟩ := M.bind_eq_ok.1 h
      cases h
      exact named_scripts ha hcells _ hfree hu
    · cases h
      exact hfree


theorem named_infix {name : Nat} {op l r t : SNode} (hn : P name)
    (ho : Named P op) (hl : Named P l) (hr : Named P r) (h : buildInfix name op l r = .ok t) :
    Named P t := by
  refine named_new hn (c := .children _) (fun c hc => ?_) h
  rcases List.mem_cons.1 hc with rfl | hc
  · exact hl
  · rcases List.mem_cons.1 hc with rfl | hc
    · exact ho
    · rw [List.mem_singleton.1 hc]; exact hr

theorem named_prefix {name : Nat} {op r t : SNode} (hn : P name)
    (ho : Named P op) (hr : Named P r) (h : buildPrefix name op r = .ok t) : Named P t := by
  refine named_new hn (c := .children _) (fun c hc => ?_) h
  rcases List.mem_cons.1 hc with rfl | hc
  · exact ho
  · rw [List.mem_singleton.1 hc]; exact hr

/-! ## All trees, with errors -/

/-- The results of a recursive call are named by `P`. -/
def CallNamed (P : Nat → Prop) (call : Rec) : Prop :=
  ∀ row pos min e res q, call row pos min e = .ok (res, q) → Named P res.node

theorem named_whole {call : Rec} (hc : CallNamed P call) {row : Row} {t : SNode}
    (h : parseWhole call row = .ok t) : Named P t := by
  unfold parseWhole at h
  obtain ⟨⟨res, p⟩, hcall, h⟩ := M.bind_eq_ok.1 h
  simp only at h
  split at h
  · cases h; exact hc _ _ _ _ _ _ hcall
  · cases h

theorem named_iter (ha : g.Gives P) {call : Rec} (hc : CallNamed P call) {row : Row} {role : Role}
    {pos p : Nat} {t : SNode} {r : Rule}
    (h : parseIter call g row pos (g.ofRole role) = .ok (some (t, r, p))) : Named P t ∧ P r.name := by
  obtain ⟨a, b, hs, -, h2⟩ := parseIter_some.1 h
  obtain ⟨h3, h4⟩ := mem_ofRole.1 (show r ∈ g.ofRole role by rw [hs]; simp)
  have hne : r.role ≠ none := by rw [h4]; simp
  exact ⟨named_rule ha (fun _ _ _ _ _ _ _ t ht => named_whole hc ht) h3 hne
    (fun _ _ _ _ _ res q h => hc _ _ _ _ _ _ h) h2, ha.rules r h3 hne⟩

/-- Also the names of errors satisfy `P`. -/
structure Grammar.GivesAll (g : Grammar) (P : Nat → Prop) : Prop extends g.Gives P where
  errors : ∀ n ∈ g.errorNames, P n

theorem named_missingAtom (ha : g.GivesAll P) {pos : Nat} {t : SNode}
    (h : makeMissingAtom g pos = .ok t) : Named P t :=
  named_new (ha.errors _ (by simp [Grammar.errorNames])) (c := .children []) (fun _ h => by cases h) h

theorem named_missingOperator (ha : g.GivesAll P) {a b t : SNode} (h1 : Named P a) (h2 : Named P b)
    (h : makeMissingOperator g a b = .ok t) : Named P t := by
  unfold makeMissingOperator BuiltIn.errorMissingOperator at h
  obtain ⟨m, hm, h⟩ := M.bind_eq_ok.1 h
  have hop : P g.builtIn.missingOperator := ha.errors _ (by simp [Grammar.errorNames])
  refine named_new hop (c := .children _) (fun c hc => ?_) h
  rcases List.mem_cons.1 hc with rfl | hc
  · exact h1
  · rcases List.mem_cons.1 hc with rfl | hc
    · exact named_new (ha.errors _ (by simp [Grammar.errorNames])) (c := .children []) (fun _ h => by cases h) hm
    · rw [List.mem_singleton.1 hc]; exact h2

theorem named_unknownAtom (ha : g.GivesAll P) {row : Row} {pos : Nat} {t : SNode}
    (h : makeUnknownAtom g row pos = .ok t) : Named P t := by
  unfold makeUnknownAtom at h
  obtain ⟨n, hn, h⟩ := M.bind_eq_ok.1 h
  cases n with
  | container v cells w => cases h
  | symbol s =>
    exact named_new (ha.errors _ (by simp [Grammar.errorNames])) (c := .leaf _ _) trivial h

theorem named_unknownLoop (ha : g.GivesAll P) {call : Rec} {row : Row} {e : Ending} :
    ∀ (n : Nat) {a t : SNode} {pos p : Nat}, Named P a →
    unknownLoop call g row e n a pos = .ok (t, p) → Named P t
  | 0, _, _, _, _, _, h => by cases h
  | n + 1, a, t, pos, p, hna, h => by
    rw [unknownLoop] at h
    obtain ⟨b, hb, h⟩ := M.bind_eq_ok.1 h
    cases b with
    | true => cases h; exact hna
    | false =>
      obtain ⟨x, hx, h⟩ := M.bind_eq_ok.1 h
      obtain ⟨y, hy, h⟩ := M.bind_eq_ok.1 h
      exact named_unknownLoop ha n (named_missingOperator ha hna (named_unknownAtom ha hx) hy) h

theorem named_unknown (ha : g.GivesAll P) {call : Rec} {row : Row} {e : Ending} {t : SNode}
    {pos p : Nat} (h : parseUnknown call g row e pos = .ok (t, p)) : Named P t := by
  unfold parseUnknown at h
  obtain ⟨x, hx, h⟩ := M.bind_eq_ok.1 h
  exact named_unknownLoop ha _ (named_unknownAtom ha hx) h

theorem named_start (ha : g.GivesAll P) {call : Rec} (hc : CallNamed P call) {row : Row} {e : Ending}
    {pos q : Nat} {s : Start} (h : prattStart call g row e pos = .ok (s, q)) :
    match s with
    | .left t => Named P t
    | .finished t => Named P t := by
  unfold prattStart at h
  split at h
  · obtain ⟨t, ht, h⟩ := M.bind_eq_ok.1 h
    cases h
    exact named_missingAtom ha ht
  · obtain ⟨o, ho, h⟩ := M.bind_eq_ok.1 h
    cases o with
    | some x =>
      obtain ⟨op, r, p1⟩ := x
      obtain ⟨h1, h2⟩ := named_iter (role := .prefix) ha.toGives hc ho
      obtain ⟨⟨right, p2⟩, hcall, h⟩ := M.bind_eq_ok.1 h
      obtain ⟨t, ht, h⟩ := M.bind_eq_ok.1 h
      have key := named_prefix h2 h1 (hc _ _ _ _ _ _ hcall) ht
      cases right with
      | expression u => cases h; exact key
      | stop u => cases h; exact key
    | none =>
      obtain ⟨o, ho, h⟩ := M.bind_eq_ok.1 h
      cases o with
      | some x =>
        obtain ⟨t, r, p1⟩ := x
        cases h
        exact (named_iter (role := .atom) ha.toGives hc ho).1
      | none =>
        obtain ⟨b, hb, h⟩ := M.bind_eq_ok.1 h
        cases b with
        | true =>
          obtain ⟨t, ht, h⟩ := M.bind_eq_ok.1 h
          cases h
          exact named_missingAtom ha ht
        | false =>
          simp only [Bool.false_eq_true, if_false] at h
          split at h
          · obtain ⟨t, ht, h⟩ := M.bind_eq_ok.1 h
            cases h
            exact named_missingAtom ha ht
          · obtain ⟨⟨t, p1⟩, ht, h⟩ := M.bind_eq_ok.1 h
            cases h
            exact named_unknown ha ht

theorem named_loop (ha : g.GivesAll P) {call : Rec} (hc : CallNamed P call) {row : Row} {min : Power}
    {e : Ending} : ∀ (n : Nat) {left : SNode} {pos q : Nat} {res : PResult}, Named P left →
    prattLoop call g row min e n left pos = .ok (res, q) → Named P res.node
  | 0, _, _, _, _, _, h => by cases h
  | n + 1, left, pos, q, res, hl, h => by
    rw [prattLoop] at h
    split at h
    · cases h; exact hl
    · obtain ⟨o, ho, h⟩ := M.bind_eq_ok.1 h
      cases o with
      | some x =>
        obtain ⟨op, r, p1⟩ := x
        obtain ⟨h1, h2⟩ := named_iter (role := .infix) ha.toGives hc ho
        simp only at h
        split at h
        · cases h; exact hl
        · obtain ⟨⟨right, p2⟩, hcall, h⟩ := M.bind_eq_ok.1 h
          obtain ⟨t, ht, h⟩ := M.bind_eq_ok.1 h
          have key := named_infix h2 h1 hl (hc _ _ _ _ _ _ hcall) ht
          cases right with
          | expression u => exact named_loop ha hc n key h
          | stop u => cases h; exact key
      | none =>
        obtain ⟨o, ho, h⟩ := M.bind_eq_ok.1 h
        cases o with
        | some x =>
          obtain ⟨op, r, p1⟩ := x
          obtain ⟨h1, h2⟩ := named_iter (role := .postfix) ha.toGives hc ho
          simp only at h
          split at h
          · cases h; exact hl
          · obtain ⟨t, ht, h⟩ := M.bind_eq_ok.1 h
            exact named_loop ha hc n (named_postfix h2 h1 hl ht) h
        | none =>
          obtain ⟨b, hb, h⟩ := M.bind_eq_ok.1 h
          cases b with
          | true =>
            simp only [if_true] at h
            split at h
            · cases h; exact hl
            · obtain ⟨⟨right, p2⟩, hcall, h⟩ := M.bind_eq_ok.1 h
              obtain ⟨t, ht, h⟩ := M.bind_eq_ok.1 h
              have key := named_missingOperator ha hl (hc _ _ _ _ _ _ hcall) ht
              cases right with
              | expression u => exact named_loop ha hc n key h
              | stop u => cases h; exact key
          | false =>
            simp only [Bool.false_eq_true, if_false] at h
            split at h
            · cases h; exact hl
            · obtain ⟨⟨right, p2⟩, hcall, h⟩ := M.bind_eq_ok.1 h
              obtain ⟨t, ht, h⟩ := M.bind_eq_ok.1 h
              exact named_loop ha hc n (named_missingOperator ha hl (named_unknown ha hcall) ht) h

theorem named_pratt (ha : g.GivesAll P) : ∀ f, CallNamed P (pratt g f)
  | 0 => fun _ _ _ _ _ _ h => by cases h
  | f + 1 => fun row pos min e res q h => by
    rw [pratt, prattBody] at h
    obtain ⟨⟨s, p⟩, hs, h⟩ := M.bind_eq_ok.1 h
    have hstart := named_start ha (named_pratt ha f) hs
    cases s with
    | finished t => cases h; exact hstart
    | left t => exact named_loop ha (named_pratt ha f) _ hstart h

/-- All nodes of a parse tree are named by `P`. -/
theorem named_parse (ha : g.GivesAll P) {f : Nat} {row : Row} {t : SNode}
    (h : g.parseFuel f row = .ok t) : Named P t :=
  named_whole (named_pratt ha f) h

end Aftermath

import Verif.Proof.TreeNames

/-! # Properties of all trees that the parser makes

A property of trees that goes from the parts of a node to the node holds of every tree that the parser
makes. The cells of a container may satisfy another property than the other parts. -/

namespace Aftermath

/-- `T` goes from the parts of a node to the node, if the name of the node satisfies `P`. The cells of
a container satisfy `C`. -/
class KeepsTree (P : outParam (Nat → Prop)) (C : outParam (SNode → Prop)) (T : SNode → Prop) : Prop where
  leaf : ∀ {n lo hi : Nat} {ty : LeafType} {ss : List Str}, P n → T (.leaf n lo hi ty ss)
  children : ∀ {n lo hi : Nat} {cs : List SNode}, P n → (∀ c ∈ cs, T c) → T (.children n lo hi cs)
  newRows : ∀ {n lo hi w : Nat} {cs : List SNode}, P n → (∀ c ∈ cs, C c) → T (.newRows n lo hi cs w)

section

variable {g : Grammar} {P : Nat → Prop} {C T : SNode → Prop} [K : KeepsTree P C T]

/-- All trees inside are kept. -/
def SChildren.Keep (C T : SNode → Prop) : SChildren → Prop
  | .newRows cells _ => ∀ c ∈ cells, C c
  | .children cs => ∀ c ∈ cs, T c
  | .leaf _ _ => True

include K

theorem keep_new {n lo hi : Nat} {c : SChildren} {t : SNode} (h : P n)
    (hc : c.Keep C T) (hn : SNode.new n lo hi c = .ok t) : T t := by
  cases c with
  | leaf ty ss => cases hn; exact (KeepsTree.leaf (C := C)) h
  | newRows cs w => cases hn; exact KeepsTree.newRows h hc
  | children cs => rw [new_eq hn]; exact (KeepsTree.children (C := C)) h hc

theorem keep_spaces (ha : g.Gives P) {row : Row} {pos p : Nat} {o : Option SNode}
    (h : parseSpaces g row pos = .ok (o, p)) : ∀ t, o = some t → T t := by
  intro t ht
  subst ht
  unfold parseSpaces at h
  simp only at h
  split at h
  · cases h
  · obtain ⟨u, hu, h⟩ := M.bind_eq_ok.1 h
    cases h
    exact keep_new (ha.builtIn _ (by simp)) (c := .leaf _ _) trivial hu

theorem keep_whitespaces (ha : g.Gives P) {sb sa : Option SNode} {t t' : SNode}
    {lo hi : Nat} (hb : ∀ u, sb = some u → T u) (ht : T t)
    (hs : ∀ u, sa = some u → T u)
    (h : g.builtIn.whitespacesNode sb t sa lo hi = .ok t') : T t' := by
  have hn : P g.builtIn.whitespaces := ha.builtIn _ (by simp)
  unfold BuiltIn.whitespacesNode at h
  cases sb with
  | none =>
    cases sa with
    | none => cases h; exact ht
    | some b =>
      refine keep_new hn (c := .children _) (fun c hc => ?_) h
      rcases List.mem_cons.1 hc with rfl | hc
      · exact ht
      · rw [List.mem_singleton.1 hc]; exact hs b rfl
  | some a =>
    cases sa with
    | none =>
      refine keep_new hn (c := .children _) (fun c hc => ?_) h
      rcases List.mem_cons.1 hc with rfl | hc
      · exact hb c rfl
      · rw [List.mem_singleton.1 hc]; exact ht
    | some b =>
      refine keep_new hn (c := .children _) (fun c hc => ?_) h
      rcases List.mem_cons.1 hc with rfl | hc
      · exact hb c rfl
      · rcases List.mem_cons.1 hc with rfl | hc
        · exact ht
        · rw [List.mem_singleton.1 hc]; exact hs b rfl

/-- The cells of all containers in the row satisfy `C`. -/
def CellsKeep (C : SNode → Prop) (call : Rec) (row : Row) : Prop :=
  ∀ (i : Nat) v cells w, row[i]? = some (Node.container v cells w) → ∀ c ∈ cells, ∀ t,
    parseWhole call c = .ok t → C t

omit K in
theorem keep_cells {call : Rec} : ∀ {cells : List Row} {ts : List SNode},
    (∀ c ∈ cells, ∀ t, parseWhole call c = .ok t → C t) →
    parseCells call cells = .ok ts → ∀ t ∈ ts, C t
  | [], ts, _, h => by cases h; exact nofun
  | r :: rs, ts, hc, h => by
    rw [parseCells] at h
    obtain ⟨t, ht, h⟩ := M.bind_eq_ok.1 h
    obtain ⟨ts', hts, h⟩ := M.bind_eq_ok.1 h
    cases h
    intro u hu
    rcases List.mem_cons.1 hu with rfl | hu
    · exact hc r (List.mem_cons_self ..) u ht
    · exact keep_cells (fun c hc' => hc c (List.mem_cons_of_mem _ hc')) hts u hu

omit K in
theorem keep_container {call : Rec} {row : Row} (hcells : CellsKeep C call row) {v : Variant}
    {pos p : Nat} {c : SChildren} (h : parseContainer call v row pos = .ok (some (c, p))) :
    c.Keep C T := by
  unfold parseContainer at h
  cases hr : row[pos]? with
  | none => rw [hr] at h; cases h
  | some n =>
    rw [hr] at h
    cases n with
    | symbol s => cases h
    | container v' cells w =>
      simp only at h
      split at h
      · obtain ⟨ts, hts, h⟩ := M.bind_eq_ok.1 h
        obtain ⟨gr, hgr, h⟩ := M.bind_eq_ok.1 h
        cases h
        unfold GridVec.fromOneDimensional at hgr
        have hv : gr.values = ts := by
          split at hgr
          · cases hgr
          · split at hgr
            · cases hgr; rfl
            · cases hgr
        simp only [SChildren.Keep, hv]
        exact keep_cells (fun c hc t ht => hcells pos v' cells w hr c hc t ht) hts
      · cases h

theorem keep_token {call : Rec} {row : Row} (hcells : CellsKeep C call row)
    {tp : TokenParser} (hbr : ∀ n o c, (tp = .brackets n o c ∨ tp = .emptyBrackets n o c) →
      P n) {pos p : Nat} {c : SChildren}
    (hin : ∀ n o cl, tp = .brackets n o cl → pos + 1 ≤ row.length → ∀ res q,
      call row (pos + 1) (0, .weak) (.sym cl) = .ok (res, q) → T res.node)
    (h : tokenParse call g tp row pos = .ok (some (c, p))) : c.Keep C T := by
  cases tp with
  | symbols ss ty =>
    simp only [tokenParse, Except.ok.injEq, Option.map_eq_some_iff, Prod.mk.injEq] at h
    obtain ⟨_, _, rfl, _⟩ := h
    trivial
  | «variable» =>
    simp only [tokenParse, Except.ok.injEq] at h
    unfold parseVariable at h
    obtain ⟨⟨a, p1⟩, _, h⟩ := Option.bind_eq_some_iff.1 h
    cases h
    trivial
  | number =>
    simp only [tokenParse, Except.ok.injEq] at h
    unfold parseNumber at h
    obtain ⟨⟨a, p1⟩, _, h⟩ := Option.bind_eq_some_iff.1 h
    cases hf : parseFractional row p1 with
    | none => simp only [hf] at h; cases h; trivial
    | some x => simp only [hf] at h; cases h; trivial
  | string =>
    simp only [tokenParse, Except.ok.injEq] at h
    unfold parseString at h
    obtain ⟨⟨a, p1⟩, _, h⟩ := Option.bind_eq_some_iff.1 h
    obtain ⟨⟨b, p2⟩, _, h⟩ := Option.bind_eq_some_iff.1 h
    cases h
    trivial
  | container v => exact keep_container hcells h
  | emptyBrackets n o cl =>
    simp only [tokenParse] at h
    unfold parseEmptyBrackets at h
    cases h1 : selectSym (fun s => s == o) row pos with
    | none => rw [h1] at h; cases h
    | some x =>
      obtain ⟨l, p1⟩ := x
      simp only [h1] at h
      cases h2 : selectSym (fun s => s == cl) row p1 with
      | none => rw [h2] at h; cases h
      | some y =>
        obtain ⟨r, p2⟩ := y
        simp only [h2, new_leaf, M.ok_bind] at h
        cases h
        have hn := hbr n o cl (.inr rfl)
        intro c hc
        rcases List.mem_cons.1 hc with rfl | hc
        · exact (KeepsTree.leaf (C := C)) hn
        · rw [List.mem_singleton.1 hc]; exact (KeepsTree.leaf (C := C)) hn
  | brackets n o cl =>
    simp only [tokenParse] at h
    unfold parseBrackets at h
    cases h1 : selectSym (fun s => s == o) row pos with
    | none => rw [h1] at h; cases h
    | some x =>
      obtain ⟨l, p1⟩ := x
      obtain ⟨hs, -, -, rfl⟩ := selectSym_spec h1
      simp only [h1] at h
      obtain ⟨⟨res, p2⟩, hcall, h⟩ := M.bind_eq_ok.1 h
      have hres := hin n o cl rfl hs.le res p2 hcall
      cases h2 : selectSym (fun s => s == cl) row p2 with
      | none => simp only [h2] at h; cases h
      | some y =>
        obtain ⟨r, p3⟩ := y
        simp only [h2, new_leaf, M.ok_bind] at h
        cases h
        have hn := hbr n o cl (.inl rfl)
        intro c hc
        rcases List.mem_cons.1 hc with rfl | hc
        · exact (KeepsTree.leaf (C := C)) hn
        · rcases List.mem_cons.1 hc with rfl | hc
          · exact hres
          · rw [List.mem_singleton.1 hc]; exact (KeepsTree.leaf (C := C)) hn

theorem keep_script (ha : g.Gives P) {call : Rec} {row : Row} (hcells : CellsKeep C call row)
    {v : Variant} {pos p : Nat} {t : SNode}
    (h : parseScript call g v row pos = .ok (some (t, p))) : T t := by
  unfold parseScript at h
  obtain ⟨o, ho, h⟩ := M.bind_eq_ok.1 h
  cases o with
  | none => cases h
  | some x =>
    obtain ⟨c, p1⟩ := x
    obtain ⟨node, hnode, h⟩ := M.bind_eq_ok.1 h
    obtain ⟨⟨sa, p2⟩, hsa, h⟩ := M.bind_eq_ok.1 h
    obtain ⟨t', ht', h⟩ := M.bind_eq_ok.1 h
    cases h
    exact keep_whitespaces ha (fun _ h => by cases h)
      (keep_new (ha.builtIn _ (by simp)) (keep_container hcells ho) hnode)
      (keep_spaces ha hsa) ht'

theorem keep_postfix {name : Nat} {op l t : SNode} (hn : P name)
    (ho : T op) (hl : T l) (h : buildPostfix name op l = .ok t) :
    T t := by
  refine keep_new hn (c := .children _) (fun c hc => ?_) h
  rcases List.mem_cons.1 hc with rfl | hc
  · exact hl
  · rw [List.mem_singleton.1 hc]; exact ho

theorem keep_scripts (ha : g.Gives P) {call : Rec} {row : Row} (hcells : CellsKeep C call row) :
    ∀ (n : Nat) {t : SNode} {pos : Nat} {t' : SNode} {p : Nat}, T t →
    parseScripts call g row n t pos = .ok (t', p) → T t'
  | 0, _, _, _, _, _, h => by cases h
  | n + 1, t, pos, t', p, ht, h => by
    unfold parseScripts at h
    obtain ⟨o, ho, h⟩ := M.bind_eq_ok.1 h
    cases o with
    | some x =>
      obtain ⟨s, p1⟩ := x
      obtain ⟨u, hu, h⟩ := M.bind_eq_ok.1 h
      exact keep_scripts ha hcells n (keep_postfix (ha.builtIn _ (by simp))
        (keep_script ha hcells ho) ht hu) h
    | none =>
      obtain ⟨o, ho, h⟩ := M.bind_eq_ok.1 h
      cases o with
      | some x =>
        obtain ⟨s, p1⟩ := x
        obtain ⟨u, hu, h⟩ := M.bind_eq_ok.1 h
        exact keep_scripts ha hcells n (keep_postfix (ha.builtIn _ (by simp))
          (keep_script ha hcells ho) ht hu) h
      | none => cases h; exact ht

/-- A token is kept if the cells in the row and the brackets of the token are. -/
theorem keep_rule (ha : g.Gives P) {call : Rec} {row : Row} (hcells : CellsKeep C call row) {r : Rule}
    (hr : r ∈ g.modules.flatten) (hrole : r.role ≠ none) {pos p : Nat} {t : SNode}
    (hin : ∀ n o cl, r.parser = .brackets n o cl →
      pos + leadingSpaces (row.drop pos) + 1 ≤ row.length → ∀ res q,
      call row (pos + leadingSpaces (row.drop pos) + 1) (0, .weak) (.sym cl) = .ok (res, q) →
      T res.node)
    (h : ruleParse call g r row pos = .ok (some (t, p))) : T t := by
  unfold ruleParse at h
  obtain ⟨⟨sb, p1⟩, hsb, h⟩ := M.bind_eq_ok.1 h
  have hp1 := parseSpaces_pos hsb
  obtain ⟨o, ho, h⟩ := M.bind_eq_ok.1 h
  cases o with
  | none => cases h
  | some x =>
    obtain ⟨c, p2⟩ := x
    obtain ⟨node, hnode, h⟩ := M.bind_eq_ok.1 h
    obtain ⟨⟨sa, p3⟩, hsa, h⟩ := M.bind_eq_ok.1 h
    obtain ⟨t', ht', h⟩ := M.bind_eq_ok.1 h
    rw [← hp1] at hin
    have hname : P (tokenName g r) := by
      unfold tokenName
      split
      · exact ha.rules r hr hrole
      · exact ha.builtIn _ (by simp)
    have hfree := keep_whitespaces ha (keep_spaces ha hsb)
      (keep_new hname (keep_token hcells (ha.brackets r hr hrole) hin ho) hnode)
      (keep_spaces ha hsa) ht'
    split at h
    · obtain ⟨⟨u, p4⟩, hu, h⟩ := M.bind_eq_ok.1 h
      cases h
      exact keep_scripts ha hcells _ hfree hu
    · cases h
      exact hfree


theorem keep_infix {name : Nat} {op l r t : SNode} (hn : P name)
    (ho : T op) (hl : T l) (hr : T r) (h : buildInfix name op l r = .ok t) :
    T t := by
  refine keep_new hn (c := .children _) (fun c hc => ?_) h
  rcases List.mem_cons.1 hc with rfl | hc
  · exact hl
  · rcases List.mem_cons.1 hc with rfl | hc
    · exact ho
    · rw [List.mem_singleton.1 hc]; exact hr

theorem keep_prefix {name : Nat} {op r t : SNode} (hn : P name)
    (ho : T op) (hr : T r) (h : buildPrefix name op r = .ok t) : T t := by
  refine keep_new hn (c := .children _) (fun c hc => ?_) h
  rcases List.mem_cons.1 hc with rfl | hc
  · exact ho
  · rw [List.mem_singleton.1 hc]; exact hr

/-! ## All trees, with errors -/

/-- The results of a recursive call are kept. -/
def CallKeep (T : SNode → Prop) (call : Rec) : Prop :=
  ∀ row pos min e res q, call row pos min e = .ok (res, q) → T res.node

omit K in
theorem keep_whole {T : SNode → Prop} {call : Rec} (hc : CallKeep T call) {row : Row} {t : SNode}
    (h : parseWhole call row = .ok t) : T t := by
  unfold parseWhole at h
  obtain ⟨⟨res, p⟩, hcall, h⟩ := M.bind_eq_ok.1 h
  simp only at h
  split at h
  · cases h; exact hc _ _ _ _ _ _ hcall
  · cases h

theorem keep_iter (ha : g.Gives P) {call : Rec} (hc : CallKeep T call) (hd : CallKeep C call) {row : Row} {role : Role}
    {pos p : Nat} {t : SNode} {r : Rule}
    (h : parseIter call g row pos (g.ofRole role) = .ok (some (t, r, p))) : T t ∧ P r.name := by
  obtain ⟨a, b, hs, -, h2⟩ := parseIter_some.1 h
  obtain ⟨h3, h4⟩ := mem_ofRole.1 (show r ∈ g.ofRole role by rw [hs]; simp)
  have hne : r.role ≠ none := by rw [h4]; simp
  exact ⟨keep_rule ha (fun _ _ _ _ _ _ _ t ht => keep_whole hd ht) h3 hne
    (fun _ _ _ _ _ res q h => hc _ _ _ _ _ _ h) h2, ha.rules r h3 hne⟩

theorem keep_missingAtom (ha : g.GivesAll P) {pos : Nat} {t : SNode}
    (h : makeMissingAtom g pos = .ok t) : T t :=
  keep_new (ha.errors _ (by simp [Grammar.errorNames])) (c := .children []) (fun _ h => by cases h) h

theorem keep_missingOperator (ha : g.GivesAll P) {a b t : SNode} (h1 : T a) (h2 : T b)
    (h : makeMissingOperator g a b = .ok t) : T t := by
  unfold makeMissingOperator BuiltIn.errorMissingOperator at h
  obtain ⟨m, hm, h⟩ := M.bind_eq_ok.1 h
  have hop : P g.builtIn.missingOperator := ha.errors _ (by simp [Grammar.errorNames])
  refine keep_new hop (c := .children _) (fun c hc => ?_) h
  rcases List.mem_cons.1 hc with rfl | hc
  · exact h1
  · rcases List.mem_cons.1 hc with rfl | hc
    · exact keep_new (ha.errors _ (by simp [Grammar.errorNames])) (c := .children []) (fun _ h => by cases h) hm
    · rw [List.mem_singleton.1 hc]; exact h2

theorem keep_unknownAtom (ha : g.GivesAll P) {row : Row} {pos : Nat} {t : SNode}
    (h : makeUnknownAtom g row pos = .ok t) : T t := by
  unfold makeUnknownAtom at h
  obtain ⟨n, hn, h⟩ := M.bind_eq_ok.1 h
  cases n with
  | container v cells w => cases h
  | symbol s =>
    exact keep_new (ha.errors _ (by simp [Grammar.errorNames])) (c := .leaf _ _) trivial h

theorem keep_unknownLoop (ha : g.GivesAll P) {call : Rec} {row : Row} {e : Ending} :
    ∀ (n : Nat) {a t : SNode} {pos p : Nat}, T a →
    unknownLoop call g row e n a pos = .ok (t, p) → T t
  | 0, _, _, _, _, _, h => by cases h
  | n + 1, a, t, pos, p, hna, h => by
    rw [unknownLoop] at h
    obtain ⟨b, hb, h⟩ := M.bind_eq_ok.1 h
    cases b with
    | true => cases h; exact hna
    | false =>
      obtain ⟨x, hx, h⟩ := M.bind_eq_ok.1 h
      obtain ⟨y, hy, h⟩ := M.bind_eq_ok.1 h
      exact keep_unknownLoop ha n (keep_missingOperator ha hna (keep_unknownAtom ha hx) hy) h

theorem keep_unknown (ha : g.GivesAll P) {call : Rec} {row : Row} {e : Ending} {t : SNode}
    {pos p : Nat} (h : parseUnknown call g row e pos = .ok (t, p)) : T t := by
  unfold parseUnknown at h
  obtain ⟨x, hx, h⟩ := M.bind_eq_ok.1 h
  exact keep_unknownLoop ha _ (keep_unknownAtom ha hx) h

theorem keep_start (ha : g.GivesAll P) {call : Rec} (hc : CallKeep T call) (hd : CallKeep C call) {row : Row} {e : Ending}
    {pos q : Nat} {s : Start} (h : prattStart call g row e pos = .ok (s, q)) :
    match s with
    | .left t => T t
    | .finished t => T t := by
  unfold prattStart at h
  split at h
  · obtain ⟨t, ht, h⟩ := M.bind_eq_ok.1 h
    cases h
    exact keep_missingAtom ha ht
  · obtain ⟨o, ho, h⟩ := M.bind_eq_ok.1 h
    cases o with
    | some x =>
      obtain ⟨op, r, p1⟩ := x
      obtain ⟨h1, h2⟩ := keep_iter (role := .prefix) ha.toGives hc hd ho
      obtain ⟨⟨right, p2⟩, hcall, h⟩ := M.bind_eq_ok.1 h
      obtain ⟨t, ht, h⟩ := M.bind_eq_ok.1 h
      have key := keep_prefix h2 h1 (hc _ _ _ _ _ _ hcall) ht
      cases right with
      | expression u => cases h; exact key
      | stop u => cases h; exact key
    | none =>
      obtain ⟨o, ho, h⟩ := M.bind_eq_ok.1 h
      cases o with
      | some x =>
        obtain ⟨t, r, p1⟩ := x
        cases h
        exact (keep_iter (role := .atom) ha.toGives hc hd ho).1
      | none =>
        obtain ⟨b, hb, h⟩ := M.bind_eq_ok.1 h
        cases b with
        | true =>
          obtain ⟨t, ht, h⟩ := M.bind_eq_ok.1 h
          cases h
          exact keep_missingAtom ha ht
        | false =>
          simp only [Bool.false_eq_true, if_false] at h
          split at h
          · obtain ⟨t, ht, h⟩ := M.bind_eq_ok.1 h
            cases h
            exact keep_missingAtom ha ht
          · obtain ⟨⟨t, p1⟩, ht, h⟩ := M.bind_eq_ok.1 h
            cases h
            exact keep_unknown ha ht

theorem keep_loop (ha : g.GivesAll P) {call : Rec} (hc : CallKeep T call) (hd : CallKeep C call) {row : Row} {min : Power}
    {e : Ending} : ∀ (n : Nat) {left : SNode} {pos q : Nat} {res : PResult}, T left →
    prattLoop call g row min e n left pos = .ok (res, q) → T res.node
  | 0, _, _, _, _, _, h => by cases h
  | n + 1, left, pos, q, res, hl, h => by
    rw [prattLoop] at h
    split at h
    · cases h; exact hl
    · obtain ⟨o, ho, h⟩ := M.bind_eq_ok.1 h
      cases o with
      | some x =>
        obtain ⟨op, r, p1⟩ := x
        obtain ⟨h1, h2⟩ := keep_iter (role := .infix) ha.toGives hc hd ho
        simp only at h
        split at h
        · cases h; exact hl
        · obtain ⟨⟨right, p2⟩, hcall, h⟩ := M.bind_eq_ok.1 h
          obtain ⟨t, ht, h⟩ := M.bind_eq_ok.1 h
          have key := keep_infix h2 h1 hl (hc _ _ _ _ _ _ hcall) ht
          cases right with
          | expression u => exact keep_loop ha hc hd n key h
          | stop u => cases h; exact key
      | none =>
        obtain ⟨o, ho, h⟩ := M.bind_eq_ok.1 h
        cases o with
        | some x =>
          obtain ⟨op, r, p1⟩ := x
          obtain ⟨h1, h2⟩ := keep_iter (role := .postfix) ha.toGives hc hd ho
          simp only at h
          split at h
          · cases h; exact hl
          · obtain ⟨t, ht, h⟩ := M.bind_eq_ok.1 h
            exact keep_loop ha hc hd n (keep_postfix h2 h1 hl ht) h
        | none =>
          obtain ⟨b, hb, h⟩ := M.bind_eq_ok.1 h
          cases b with
          | true =>
            simp only [if_true] at h
            split at h
            · cases h; exact hl
            · obtain ⟨⟨right, p2⟩, hcall, h⟩ := M.bind_eq_ok.1 h
              obtain ⟨t, ht, h⟩ := M.bind_eq_ok.1 h
              have key := keep_missingOperator ha hl (hc _ _ _ _ _ _ hcall) ht
              cases right with
              | expression u => exact keep_loop ha hc hd n key h
              | stop u => cases h; exact key
          | false =>
            simp only [Bool.false_eq_true, if_false] at h
            split at h
            · cases h; exact hl
            · obtain ⟨⟨right, p2⟩, hcall, h⟩ := M.bind_eq_ok.1 h
              obtain ⟨t, ht, h⟩ := M.bind_eq_ok.1 h
              exact keep_loop ha hc hd n (keep_missingOperator ha hl (keep_unknown ha hcall) ht) h

end

end Aftermath

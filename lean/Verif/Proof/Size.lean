import Verif.Proof.Made
import Verif.Props.AnyRow
import Verif.Spec.Size

/-! # Lemmas on the size of syntax trees

Sizes are doubled, weights are taken seven times: two symbols `!` and `¬` next to each other make
seven nodes. -/

namespace Aftermath

variable {g : Grammar} {row : Row} {e : Ending}

mutual
theorem Node.things_eq : ∀ (n : Node), n.things = n.weight
  | .symbol _ => by rw [Node.things, Node.weight]
  | .container _ cells _ => by
    have := cellsThings_eq cells
    rw [Node.things, Node.weight]
    omega
theorem rowThings_eq : ∀ (row : Row), rowThings row = rowWeight row
  | [] => rfl
  | n :: ns => by rw [rowThings, rowWeight, n.things_eq, rowThings_eq ns]
theorem cellsThings_eq : ∀ (cells : List Row), cells.length + cellsThings cells = cellsWeight cells
  | [] => rfl
  | r :: rs => by
    have h1 := rowThings_eq r
    have h2 := cellsThings_eq rs
    rw [cellsThings, cellsWeight, List.length_cons]
    omega
end

/-! ## Tokens -/

/-- The calls on everything smaller than `m` give small trees. -/
def CallSmall (call : Rec) (m : Nat) : Prop :=
  ∀ row pos e res q, rowWf row = true → pos ≤ row.length → restWeight row pos < m →
    call row pos (0, .weak) e = .ok (res, q) →
    2 * res.node.size + 7 * restWeight row q ≤ 7 * restWeight row pos + 2

theorem new_size {n a b : Nat} {cs : List SNode} {t : SNode}
    (h : SNode.new n a b (.children cs) = .ok t) : t.size = 1 + treesSize cs := by
  rw [new_eq h]; rfl

theorem whole_small {call : Rec} {m : Nat} (hc : CallSmall call m) {r : Row} {t : SNode}
    (hw : rowWf r = true) (hm : rowWeight r < m) (h : parseWhole call r = .ok t) :
    2 * t.size ≤ 7 * rowWeight r + 2 := by
  unfold parseWhole at h
  obtain ⟨⟨res, p⟩, hcall, h⟩ := M.bind_eq_ok.1 h
  simp only at h
  split at h
  · cases h
    have := hc _ _ _ _ _ hw (Nat.zero_le _) (by simpa [restWeight] using hm) hcall
    simp only [restWeight, List.drop_zero] at this
    omega
  · cases h

theorem cells_small {call : Rec} {m : Nat} (hc : CallSmall call m) : ∀ {cells : List Row}
    {ts : List SNode}, cellsWf cells = true → cellsWeight cells ≤ m →
    parseCells call cells = .ok ts → 2 * treesSize ts ≤ 7 * cellsWeight cells
  | [], ts, _, _, h => by cases h; simp [treesSize]
  | r :: rs, ts, hw, hm, h => by
    rw [parseCells] at h
    obtain ⟨t, ht, h⟩ := M.bind_eq_ok.1 h
    obtain ⟨ts', hts, h⟩ := M.bind_eq_ok.1 h
    cases h
    simp only [cellsWf, Bool.and_eq_true] at hw
    rw [cellsWeight] at hm ⊢
    have h1 := whole_small hc hw.1 (by omega) ht
    have h2 := cells_small hc hw.2 (by omega) hts
    rw [treesSize]
    omega

theorem container_small {call : Rec} {m : Nat} (hc : CallSmall call m) {v : Variant} {pos p n : Nat}
    {c : SChildren} {t : SNode} (hw : rowWf row = true) (hm : restWeight row pos ≤ m)
    (h : parseContainer call v row pos = .ok (some (c, p))) (hn : SNode.new n pos p c = .ok t) :
    p = pos + 1 ∧ 2 * t.size + 5 + 7 * restWeight row p ≤ 7 * restWeight row pos := by
  unfold parseContainer at h
  cases hr : row[pos]? with
  | none => rw [hr] at h; cases h
  | some nd =>
    rw [hr] at h
    cases nd with
    | symbol s => cases h
    | container v' cells w =>
      simp only at h
      split at h
      · have hwt := restWeight_of_get hr
        rw [Node.weight] at hwt
        have hwf := rowWf_get hw hr
        simp only [Node.wf, Bool.and_eq_true] at hwf
        obtain ⟨ts, hts, h⟩ := M.bind_eq_ok.1 h
        obtain ⟨gr, hgr, h⟩ := M.bind_eq_ok.1 h
        cases h
        have hs := cells_small hc hwf.2 (by omega) hts
        unfold GridVec.fromOneDimensional at hgr
        split at hgr
        · cases hgr
        · split at hgr
          · cases hgr
            cases hn
            refine ⟨rfl, ?_⟩
            simp only [SNode.make, SNode.size]
            omega
          · cases hgr
      · cases h

theorem token_small {call : Rec} {m : Nat} (hc : CallSmall call m)
    (hk : CallOk (ParsesTo g) call m) {tp : TokenParser} (hne : tp.NonEmpty) {pos p n : Nat}
    {c : SChildren} {t : SNode} (hw : rowWf row = true) (hp : pos ≤ row.length)
    (hm : restWeight row pos ≤ m) (h : tokenParse call g tp row pos = .ok (some (c, p)))
    (hn : SNode.new n pos p c = .ok t) :
    pos < p ∧ p ≤ row.length ∧ 2 * t.size + 5 + 7 * restWeight row p ≤ 7 * restWeight row pos := by
  obtain ⟨r, hr, hto⟩ := tokenParse_ok hk g hne hw hp hm
  rw [h] at hr
  cases hr
  obtain ⟨h1, h2, -⟩ := hto c p rfl
  refine ⟨h1, h2, ?_⟩
  have hlt := restWeight_lt row h1 h2
  have hleaf : ∀ {ty : LeafType} {ss : List Str}, c = .leaf ty ss →
      2 * t.size + 5 + 7 * restWeight row p ≤ 7 * restWeight row pos := by
    rintro ty ss rfl
    cases hn
    simp only [SNode.make, SNode.size]
    omega
  cases tp with
  | symbols ss ty =>
    simp only [tokenParse, Except.ok.injEq, Option.map_eq_some_iff, Prod.mk.injEq] at h
    obtain ⟨_, _, h, _⟩ := h
    exact hleaf h.symm
  | «variable» =>
    simp only [tokenParse, Except.ok.injEq] at h
    unfold parseVariable at h
    obtain ⟨_, _, h⟩ := Option.bind_eq_some_iff.1 h
    cases h
    exact hleaf rfl
  | number =>
    simp only [tokenParse, Except.ok.injEq] at h
    unfold parseNumber at h
    obtain ⟨_, _, h⟩ := Option.bind_eq_some_iff.1 h
    simp only at h
    split at h <;> · cases h; exact hleaf rfl
  | string =>
    simp only [tokenParse, Except.ok.injEq] at h
    unfold parseString at h
    obtain ⟨_, _, h⟩ := Option.bind_eq_some_iff.1 h
    obtain ⟨_, _, h⟩ := Option.bind_eq_some_iff.1 h
    cases h
    exact hleaf rfl
  | container v => exact (container_small hc hw hm h hn).2
  | emptyBrackets k o cl =>
    simp only [tokenParse] at h
    unfold parseEmptyBrackets at h
    cases h1 : selectSym (fun s => s == o) row pos with
    | none => rw [h1] at h; cases h
    | some x =>
      obtain ⟨l, p1⟩ := x
      simp only [h1] at h
      cases h2 : selectSym (fun s => s == cl) row p1 with
      | none => rw [h2] at h; cases h
      | some y =>
        obtain ⟨r, p2⟩ := y
        simp only [h2, new_leaf, M.ok_bind] at h
        obtain ⟨-, -, g1, rfl⟩ := selectSym_spec h1
        obtain ⟨-, -, g2, rfl⟩ := selectSym_spec h2
        cases h
        rw [new_size hn, restWeight_of_get g1, restWeight_of_get g2]
        simp only [treesSize, SNode.size, Node.weight]
        omega
  | brackets k o cl =>
    simp only [tokenParse] at h
    unfold parseBrackets at h
    cases h1 : selectSym (fun s => s == o) row pos with
    | none => rw [h1] at h; cases h
    | some x =>
      obtain ⟨l, p1⟩ := x
      obtain ⟨hs, e1, g1, rfl⟩ := selectSym_spec h1
      simp only [h1] at h
      obtain ⟨⟨res, p2⟩, hcall, h⟩ := M.bind_eq_ok.1 h
      have hw1 := restWeight_of_get g1
      rw [Node.weight] at hw1
      have hres := hc _ _ _ _ _ hw hs.le (by omega) hcall
      cases h2 : selectSym (fun s => s == cl) row p2 with
      | none => simp only [h2] at h; cases h
      | some y =>
        obtain ⟨r, p3⟩ := y
        simp only [h2, new_leaf, M.ok_bind] at h
        obtain ⟨-, e2, g2, rfl⟩ := selectSym_spec h2
        have hw2 := restWeight_of_get g2
        rw [Node.weight] at hw2
        cases h
        rw [new_size hn]
        simp only [treesSize, SNode.size]
        omega

/-! ## Rules -/

theorem Spc.small {a b : Nat} {o : Option SNode} (h : Spc g row a b o) (ha : a ≤ row.length) :
    b ≤ row.length ∧ treesSize o.toList + restWeight row b ≤ restWeight row a := by
  refine ⟨h.le_length ha, ?_⟩
  rcases h with ⟨rfl, rfl⟩ | ⟨h1, rfl, h2⟩
  · simp [treesSize]
  · have := restWeight_lt row h1 h2.le
    simp only [Option.toList, treesSize, SNode.size]
    omega

theorem wrapSpc_size (sb sa : Option SNode) (t : SNode) (a b : Nat) :
    (wrapSpc g sb t sa a b).size ≤ t.size + 2 * (treesSize sb.toList + treesSize sa.toList) := by
  have : ∀ t : SNode, 1 ≤ t.size := fun t => by cases t <;> simp [SNode.size]
  cases sb with
  | none =>
    cases sa with
    | none => simp [wrapSpc, treesSize]
    | some s =>
      have := this s
      simp only [wrapSpc, SNode.size, treesSize, Option.toList, List.nil_append]
      omega
  | some s =>
    have h1 := this s
    cases sa with
    | none =>
      simp only [wrapSpc, SNode.size, treesSize, Option.toList, List.cons_append, List.nil_append]
      omega
    | some s' =>
      have h2 := this s'
      simp only [wrapSpc, SNode.size, treesSize, Option.toList, List.cons_append, List.nil_append]
      omega

theorem script_small {call : Rec} {m : Nat} (hc : CallSmall call m) {v : Variant} {pos p : Nat}
    {t : SNode} (hw : rowWf row = true) (hp : pos < row.length) (hm : restWeight row pos ≤ m)
    (h : parseScript call g v row pos = .ok (some (t, p))) :
    p ≤ row.length ∧ 2 * t.size + 5 + 7 * restWeight row p ≤ 7 * restWeight row pos := by
  unfold parseScript at h
  obtain ⟨o, ho, h⟩ := M.bind_eq_ok.1 h
  cases o with
  | none => cases h
  | some x =>
    obtain ⟨c, p1⟩ := x
    simp only at h
    obtain ⟨node, hn, h⟩ := M.bind_eq_ok.1 h
    obtain ⟨⟨sa, p2⟩, hs, h⟩ := M.bind_eq_ok.1 h
    obtain ⟨node', hn', h⟩ := M.bind_eq_ok.1 h
    cases h
    obtain ⟨rfl, h1⟩ := container_small hc hw hm ho hn
    have h2 := (made_spaces (by omega) hs).1.small (by omega)
    have h3 := wrapSpc_size (g := g) none sa node pos p2
    rw [whitespaces_eq hn']
    simp only [Option.toList_none, treesSize] at h3 ⊢
    omega

theorem parseScript_lt {call : Rec} {v : Variant} {pos p : Nat} {t : SNode}
    (h : parseScript call g v row pos = .ok (some (t, p))) : pos < row.length := by
  unfold parseScript at h
  obtain ⟨o, ho, h⟩ := M.bind_eq_ok.1 h
  cases o with
  | none => cases h
  | some x =>
    unfold parseContainer at ho
    cases hr : row[pos]? with
    | none => rw [hr] at ho; cases ho
    | some n => exact (List.getElem?_eq_some_iff.1 hr).1

theorem postfix_size {n : Nat} {o l t : SNode} (h : buildPostfix n o l = .ok t) :
    t.size = 1 + (l.size + o.size) := by
  unfold buildPostfix at h
  rw [new_size h]
  simp [treesSize]

theorem scripts_small {call : Rec} {m : Nat} (hc : CallSmall call m) (hw : rowWf row = true) :
    ∀ (n : Nat) {node t : SNode} {pos p : Nat}, pos ≤ row.length → restWeight row pos ≤ m →
    parseScripts call g row n node pos = .ok (t, p) →
    p ≤ row.length ∧ 2 * t.size + 7 * restWeight row p ≤ 2 * node.size + 7 * restWeight row pos
  | 0, _, _, _, _, _, _, h => by cases h
  | n + 1, node, t, pos, p, hp, hm, h => by
    rw [parseScripts] at h
    obtain ⟨o, ho, h⟩ := M.bind_eq_ok.1 h
    have step : ∀ {v : Variant} {k : Nat} {s : SNode} {p1 : Nat},
        parseScript call g v row pos = .ok (some (s, p1)) →
        (do let node ← buildPostfix k s node; parseScripts call g row n node p1) = .ok (t, p) →
        p ≤ row.length ∧
          2 * t.size + 7 * restWeight row p ≤ 2 * node.size + 7 * restWeight row pos := by
      intro v k s p1 ho h
      obtain ⟨node', hn', h⟩ := M.bind_eq_ok.1 h
      obtain ⟨h1, h2⟩ := script_small hc hw (parseScript_lt ho) hm ho
      obtain ⟨h3, h4⟩ := scripts_small hc hw n h1 (by omega) h
      rw [postfix_size hn'] at h4
      exact ⟨h3, by omega⟩
    cases o with
    | some x => exact step ho h
    | none =>
      simp only at h
      obtain ⟨o, ho, h⟩ := M.bind_eq_ok.1 h
      cases o with
      | some x => exact step ho h
      | none =>
        cases h
        exact ⟨hp, Nat.le_refl _⟩

theorem rule_small {call : Rec} {m : Nat} (hc : CallSmall call m)
    (hk : CallOk (ParsesTo g) call m) {r : Rule} (hne : r.parser.NonEmpty) {pos p : Nat}
    {t : SNode} (hw : rowWf row = true) (hp : pos ≤ row.length) (hm : restWeight row pos ≤ m)
    (h : ruleParse call g r row pos = .ok (some (t, p))) :
    2 * t.size + 5 + 7 * restWeight row p ≤ 7 * restWeight row pos := by
  unfold ruleParse at h
  obtain ⟨⟨sb, p1⟩, hb, h⟩ := M.bind_eq_ok.1 h
  simp only at h
  obtain ⟨h1, h2⟩ := (made_spaces hp hb).1.small hp
  obtain ⟨o, ho, h⟩ := M.bind_eq_ok.1 h
  cases o with
  | none => cases h
  | some x =>
    obtain ⟨c, p2⟩ := x
    simp only at h
    obtain ⟨node, hn, h⟩ := M.bind_eq_ok.1 h
    obtain ⟨⟨sa, p3⟩, ha, h⟩ := M.bind_eq_ok.1 h
    obtain ⟨node', hn', h⟩ := M.bind_eq_ok.1 h
    obtain ⟨-, h3, h4⟩ := token_small hc hk hne hw h1 (by omega) ho hn
    obtain ⟨h5, h6⟩ := (made_spaces h3 ha).1.small h3
    have h7 := wrapSpc_size (g := g) sb sa node pos p3
    have h8 := whitespaces_eq hn'
    dsimp only at h8
    rw [← h8] at h7
    dsimp only at h
    split at h
    · obtain ⟨⟨t', p'⟩, hs, h⟩ := M.bind_eq_ok.1 h
      cases h
      have := (scripts_small hc hw _ h5 (by omega) hs).2
      omega
    · cases h
      omega

/-! ## Expressions -/

/-- What a token adds to the size of the tree. -/
def ETok.cost : ETok → Nat
  | operand t => t.size
  | pre _ op => op.size + 1
  | inf _ op => op.size + 1
  | post _ op => op.size + 1
  | gap => 2
  | junk t => t.size + 2

/-- The sum over some tokens. -/
def toksCost (ts : List ETok) : Nat := (ts.map ETok.cost).sum

theorem juxtaposed_size (x y : SNode) : (juxtaposed g x y).size = x.size + y.size + 2 := by
  simp only [juxtaposed, SNode.size, treesSize, missingAt]
  omega

theorem ETree.node_size : ∀ (T : ETree), (T.node g).size = toksCost T.tokens
  | .operand t => by simp [node, tokens, toksCost, ETok.cost]
  | .pre r op x => by
    have := node_size x
    simp only [node, tokens, toksCost, ETok.cost, List.map_cons, List.sum_cons, SNode.size, treesSize] at this ⊢
    omega
  | .inf r op x y => by
    have h1 := node_size x
    have h2 := node_size y
    simp only [node, tokens, toksCost, ETok.cost, List.map_cons, List.sum_cons, SNode.size, treesSize,
      List.map_append, List.sum_append] at h1 h2 ⊢
    omega
  | .post r op x => by
    have h1 := node_size x
    simp only [node, tokens, toksCost, ETok.cost, List.map_cons, List.sum_cons, SNode.size, treesSize,
      List.map_append, List.sum_append, List.map_nil, List.sum_nil] at h1 ⊢
    omega
  | .gap x y => by
    have h1 := node_size x
    have h2 := node_size y
    simp only [node, tokens, toksCost, ETok.cost, List.map_cons, List.sum_cons, juxtaposed_size,
      List.map_append, List.sum_append] at h1 h2 ⊢
    omega
  | .junk x t => by
    have h1 := node_size x
    simp only [node, tokens, toksCost, ETok.cost, List.map_cons, List.sum_cons, juxtaposed_size,
      List.map_append, List.sum_append, List.map_nil, List.sum_nil] at h1 ⊢
    omega

theorem UnknownRun.small {pos p : Nat} {t : SNode} (h : UnknownRun g row e pos t p) :
    pos < p ∧ p ≤ row.length ∧ t.size + 2 + 3 * restWeight row p ≤ 3 * restWeight row pos := by
  induction h with
  | one hu =>
    have := restWeight_of_get hu.1
    rw [Node.weight] at this
    have hl := (List.getElem?_eq_some_iff.1 hu.1).1
    refine ⟨by omega, hl, ?_⟩
    simp only [unknownAt, SNode.size]
    omega
  | more _ hu ih =>
    have := restWeight_of_get hu.1
    rw [Node.weight] at this
    have hl := (List.getElem?_eq_some_iff.1 hu.1).1
    refine ⟨by omega, hl, ?_⟩
    rw [juxtaposed_size]
    simp only [unknownAt, SNode.size]
    omega

/-- What the sizes of the tokens are bounded by. -/
structure SmallToks (g : Grammar) (row : Row) (x : Expects) (pos : Nat) (toks : List ETok) (q : Nat) :
    Prop where
  operand : x = .operand → 2 * toksCost toks + 7 * restWeight row q ≤ 7 * restWeight row pos + 2
  operator : x = .operator → 2 * toksCost toks + 7 * restWeight row q ≤ 7 * restWeight row pos + 3
  /-- after a missing operand -/
  after : x = .operator → SomeOf g .infix row pos ∨ SomeOf g .postfix row pos →
    2 * toksCost toks + 7 * restWeight row q ≤ 7 * restWeight row pos
  /-- after a missing operator -/
  before : x = .operand → SomeOf g .prefix row pos ∨ SomeOf g .atom row pos →
    2 * toksCost toks + 7 * restWeight row q + 1 ≤ 7 * restWeight row pos

theorem reads_small (hg : g.Good) (hw : rowWf row = true) {pos₀ : Nat}
    (hs : ∀ {role : Role} {pos p : Nat} {t : SNode} {r : Rule}, pos₀ ≤ pos → pos ≤ row.length →
      Chosen g role row pos t r p → 2 * t.size + 5 + 7 * restWeight row p ≤ 7 * restWeight row pos)
    {x : Expects} {pos q : Nat} {toks : List ETok} (h : ReadsAny g row e x pos toks q) :
    pos₀ ≤ pos → pos ≤ row.length → SmallToks g row x pos toks q := by
  have hfill : ∀ {role : Role} {pos p : Nat} {t : SNode} {r : Rule}, pos ≤ row.length →
      Chosen g role row pos t r p → pos < p ∧ p ≤ row.length := fun hp hc => by
    have := hc.fills ⟨hg, hw, hp, Nat.le_refl _⟩
    exact ⟨this.2, this.1.le.2⟩
  have hcost : ∀ (tk : ETok) (ts : List ETok), toksCost (tk :: ts) = tk.cost + toksCost ts :=
    fun _ _ => by simp [toksCost]
  induction h with
  | pre hc _ ih =>
    intro h0 h1
    obtain ⟨h2, h3⟩ := hfill h1 hc
    have h4 := (ih (by omega) h3).operand rfl
    have h5 := hs h0 h1 hc
    refine ⟨fun _ => ?_, nofun, nofun, fun _ _ => ?_⟩ <;> rw [hcost, ETok.cost] <;> omega
  | operand _ hc _ ih =>
    intro h0 h1
    obtain ⟨h2, h3⟩ := hfill h1 hc
    have h4 := (ih (by omega) h3).operator rfl
    have h5 := hs h0 h1 hc
    refine ⟨fun _ => ?_, nofun, nofun, fun _ _ => ?_⟩ <;> rw [hcost, ETok.cost] <;> omega
  | missing n1 n2 hsome _ ih =>
    intro h0 h1
    have h4 := (ih h0 h1).after rfl hsome
    refine ⟨fun _ => ?_, nofun, nofun, fun _ hh => ?_⟩
    · rw [hcost, ETok.cost, missingAt, SNode.size, treesSize]
      omega
    · rcases hh with hh | hh
      · exact absurd n1 hh.not_noneOf
      · exact absurd n2 hh.not_noneOf
  | missingEnd hend =>
    intro h0 h1
    refine ⟨fun _ => ?_, nofun, nofun, fun _ hh => ?_⟩
    · rw [hcost, ETok.cost, missingAt, SNode.size, treesSize]
      simp only [toksCost, List.map_nil, List.sum_nil]
      omega
    · rcases hh with hh | hh <;> exact absurd (hend.noneOf hg hw _) hh.not_noneOf
  | unknown hu _ ih =>
    intro h0 h1
    obtain ⟨h2, h3, h5⟩ := hu.1.small
    have h4 := (ih (by omega) h3).operator rfl
    have := restWeight_lt row h2 h3
    refine ⟨fun _ => ?_, nofun, nofun, fun _ _ => ?_⟩ <;> rw [hcost, ETok.cost] <;> omega
  | inf hc _ ih =>
    intro h0 h1
    obtain ⟨h2, h3⟩ := hfill h1 hc
    have h4 := (ih (by omega) h3).operand rfl
    have h5 := hs h0 h1 hc
    refine ⟨nofun, fun _ => ?_, fun _ _ => ?_, nofun⟩ <;> rw [hcost, ETok.cost] <;> omega
  | post _ hc _ ih =>
    intro h0 h1
    obtain ⟨h2, h3⟩ := hfill h1 hc
    have h4 := (ih (by omega) h3).operator rfl
    have h5 := hs h0 h1 hc
    refine ⟨nofun, fun _ => ?_, fun _ _ => ?_, nofun⟩ <;> rw [hcost, ETok.cost] <;> omega
  | gap n1 n2 hsome _ ih =>
    intro h0 h1
    have h4 := (ih h0 h1).before rfl hsome
    refine ⟨nofun, fun _ => ?_, fun _ hh => ?_, nofun⟩
    · rw [hcost, ETok.cost]
      omega
    · rcases hh with hh | hh
      · exact absurd n1 hh.not_noneOf
      · exact absurd n2 hh.not_noneOf
  | junk hu _ ih =>
    intro h0 h1
    obtain ⟨h2, h3, h5⟩ := hu.1.small
    have h4 := (ih (by omega) h3).operator rfl
    have := restWeight_lt row h2 h3
    refine ⟨nofun, fun _ => ?_, fun _ hh => ?_, nofun⟩
    · rw [hcost, ETok.cost]
      omega
    · obtain ⟨s, hs⟩ : ∃ s, Unknown g row e _ s := by
        have : ∀ {pos t p}, UnknownRun g row e pos t p → ∃ s, Unknown g row e pos s := by
          intro pos t p h
          induction h with
          | one hu => exact ⟨_, hu⟩
          | more _ _ ih => exact ih
        exact this hu.1
      rcases hh with hh | hh <;> exact absurd (hs.2.1 _) hh.not_noneOf
  | ends hend =>
    intro h0 h1
    refine ⟨nofun, fun _ => ?_, fun _ hh => ?_, nofun⟩
    · simp only [toksCost, List.map_nil, List.sum_nil]
      omega
    · rcases hh with hh | hh <;> exact absurd (hend.noneOf hg hw _) hh.not_noneOf

/-! ## Together -/

theorem pratt_small (hg : g.Good) : ∀ (m f : Nat), CallSmall (pratt g f) m
  | 0, _ => fun _ _ _ _ _ _ _ hm => absurd hm (Nat.not_lt_zero _)
  | m + 1, f => by
    have ih := pratt_small hg m
    intro row pos e res q hw hp hm hcall
    obtain ⟨toks, q', hr⟩ := reads_exists hg hw e row.length pos hp (by omega) .operand
    obtain ⟨T, hT, -, -, hcall'⟩ := pratt_any hg hw hp hr
    have h1 := hcall' (max f (restWeight row pos + 1)) (by omega)
    have h2 := pratt_mono g (Nat.le_max_left f (restWeight row pos + 1)) _ _ _ _ _ hcall
    rw [h1] at h2
    cases h2
    have hsm := (reads_small hg hw (pos₀ := pos) (fun {role pos' p t r} h0 hl hc => by
      obtain ⟨before, after, hsplit, hrole, ⟨f', hf'⟩, -⟩ := hc
      have hmem : r ∈ g.ofRole role := mem_ofRole.2 ⟨by rw [hsplit]; simp, hrole⟩
      have hle := restWeight_le row h0
      have hd : Deep g row pos' m := ⟨hg, hw, hl, by omega⟩
      exact rule_small (ih m) (pratt_ok hg m) (hg.ofRole role r hmem) hw hl (by omega)
        (ruleParse_at hd hmem hf')) hr (Nat.le_refl _) hp).operand rfl
    simp only [PResult.node]
    rw [ETree.node_size, hT]
    exact hsm

end Aftermath

import Verif.Proof.NotationRules
import Verif.Proof.Nesting

/-! # The tokens of the usual notation -/

namespace Aftermath

variable {x : Xid} {g : Grammar} {m : NameMap}

theorem drop_cons {row : Row} {pos : Nat} {n : Node} {rest : Row} (h : row.drop pos = n :: rest) :
    row[pos]? = some n ∧ row.drop (pos + 1) = rest := by
  constructor
  · have := congrArg (·[0]?) h
    simpa using this
  · rw [← List.tail_drop, h]; rfl

/-- The characters that can follow an operand. -/
def afterChars : List Char := "=<>≥≤,+-∧∨¬⇔⟹*/!^()".toList

def afterOk : Option Node → Bool
  | none => true
  | some (.symbol s) => decide (s ∈ afterChars.map fun c => [c])
  | some (.container v _ _) => decide (v = .sub) || decide (v = .sup)

def firstOk (x : Xid) : Option Node → Bool
  | some (.symbol [c]) => c.isDigit || x.start c || decide (c ∈ "+-∑∫∞⊤⊥(\"".toList)
  | some (.container v _ _) => decide (v = .fraction) || decide (v = .root) || decide (v = .table)
  | _ => false

theorem afterOk_not {n : Option Node} (h : afterOk n = true) {s : Str}
    (hs : s ∉ afterChars.map fun c => [c]) : isSym s n = false := by
  rcases n with _ | ⟨t⟩ | _
  · rfl
  · simp only [afterOk, decide_eq_true_eq] at h
    simp only [isSym, beq_eq_false_iff_ne, ne_eq]
    rintro rfl
    exact hs h
  · rfl

theorem firstOk_not (hx : x.Usual) {n : Option Node} (h : firstOk x n = true) {c : Char}
    (hc : c ∈ [' ', ')']) : isSym [c] n = false := by
  have h1 : (c.isDigit || x.start c || decide (c ∈ "+-∑∫∞⊤⊥(\"".toList)) = false := by
    have hr : c ∈ reservedChars := by
      revert c; decide +kernel
    rw [(hx.reserved c hr).1]
    have : (c.isDigit || decide (c ∈ "+-∑∫∞⊤⊥(\"".toList)) = false := by
      clear hr; revert c; decide +kernel
    simpa using this
  rcases n with _ | ⟨t⟩ | _
  · rfl
  · simp only [isSym, beq_eq_false_iff_ne, ne_eq]
    rintro rfl
    simp only [firstOk] at h
    rw [h1] at h
    cases h
  · rfl

theorem firstOk_script {n : Option Node} (h : firstOk x n = true) : isScript n = false := by
  rcases n with _ | ⟨t⟩ | ⟨v, c, w⟩
  · rfl
  · rfl
  · simp only [firstOk, Bool.or_eq_true, decide_eq_true_eq] at h
    rcases h with (rfl | rfl) | rfl <;> rfl

theorem reserved_after {c : Char} (h : [c] ∈ afterChars.map fun c => [c]) : c ∈ reservedChars := by
  have h : c ∈ afterChars := by simpa using h
  have : ∀ c ∈ afterChars, c ∈ reservedChars := by decide +kernel
  exact this c h

theorem after_not_script {n : Option Node} (h : afterOk n = true) : isSym [' '] n = false :=
  afterOk_not h (by decide +kernel)

/-- The nodes that can follow an operand, or a space. -/
def stopOk (n : Option Node) : Bool := afterOk n || isSym [' '] n

theorem stopOk_head {k : Nat} {rest : Row} (h : afterOk rest.head? = true) :
    stopOk (sp k ++ rest).head? = true := by
  cases k with
  | zero => simpa [sp, stopOk] using .inl h
  | succ k => rfl

theorem stopOk_not {n : Option Node} (h : stopOk n = true) {s : Str}
    (hs : s ∉ afterChars.map fun c => [c]) (hs' : s ≠ [' ']) : isSym s n = false := by
  simp only [stopOk, Bool.or_eq_true] at h
  rcases h with h | h
  · exact afterOk_not h hs
  · rcases n with _ | ⟨t⟩ | _
    · rfl
    · simp only [isSym, beq_iff_eq] at h
      subst h
      simpa [isSym] using hs'.symm
    · rfl

theorem afterOk_continue (S : Std x g m) (hx : x.Usual) {n : Option Node} (h : afterOk n = true) :
    ∀ s, n = some (.symbol s) → isIdentifierContinue g s = false := by
  rintro s rfl
  simp only [afterOk, decide_eq_true_eq] at h
  obtain ⟨c, hc, rfl⟩ := List.mem_map.1 h
  simp only [isIdentifierContinue, S.continue_, List.all_cons, List.all_nil, Bool.and_true]
  exact (hx.reserved c (reserved_after h)).2

theorem afterOk_digits {n : Option Node} (h : afterOk n = true) :
    ∀ s, n = some (.symbol s) → isDigits s = false := by
  rintro s rfl
  simp only [afterOk, decide_eq_true_eq] at h
  obtain ⟨c, hc, rfl⟩ := List.mem_map.1 h
  revert c
  decide +kernel

theorem stopOk_continue (S : Std x g m) (hx : x.Usual) {n : Option Node} (h : stopOk n = true) :
    ∀ s, n = some (.symbol s) → isIdentifierContinue g s = false := by
  intro s hs
  simp only [stopOk, Bool.or_eq_true] at h
  rcases h with h | h
  · exact afterOk_continue S hx h s hs
  · subst hs
    simp only [isSym, beq_iff_eq] at h
    subst h
    simp only [isIdentifierContinue, S.continue_, List.all_cons, List.all_nil, Bool.and_true]
    exact (hx.reserved ' ' (by decide +kernel)).2

theorem stopOk_digits {n : Option Node} (h : stopOk n = true) :
    ∀ s, n = some (.symbol s) → isDigits s = false := by
  intro s hs
  simp only [stopOk, Bool.or_eq_true] at h
  rcases h with h | h
  · exact afterOk_digits h s hs
  · subst hs
    simp only [isSym, beq_iff_eq] at h
    subst h
    decide +kernel

/-! ## The beginning of a row -/

theorem beginsWith_iff : ∀ {ss : List Str} {r : Row},
    beginsWith ss r = true ↔ ss.map Node.symbol <+: r
  | [], _ => by simp [beginsWith]
  | s :: ss, r => by
    refine ⟨fun h => ?_, beginsWith_of_prefix⟩
    simp only [beginsWith, Bool.and_eq_true] at h
    rcases r with _ | ⟨t | ⟨v, cs, w⟩, r⟩
    · cases h.1
    · have h1 : t = s := by simpa [isSym] using h.1
      have h2 := (beginsWith_iff (ss := ss) (r := r)).1 h.2
      rw [h1, List.map_cons, List.cons_prefix_cons]
      exact ⟨rfl, h2⟩
    · cases h.1

theorem beginsWith_left {a b : List Str} {r : Row} (h : beginsWith a r = false) :
    beginsWith (a ++ b) r = false := by
  cases hb : beginsWith (a ++ b) r with
  | false => rfl
  | true =>
    rw [beginsWith_iff, List.map_append] at hb
    rw [beginsWith_of_prefix ((List.prefix_append ..).trans hb)] at h
    cases h

/-- What begins a row that goes on with none of the symbols begins its first part. -/
theorem beginsWith_append : ∀ {ss : List Str} {r rest : Row}, beginsWith ss (r ++ rest) = true →
    (∀ s ∈ ss, isSym s rest.head? = false) → beginsWith ss r = true
  | [], _, _, _, _ => rfl
  | s :: ss, [], rest, h, hn => by
    simp only [beginsWith, List.nil_append, Bool.and_eq_true] at h
    rw [hn s (List.mem_cons_self ..)] at h
    cases h.1
  | s :: ss, n :: r, rest, h, hn => by
    simp only [beginsWith, List.cons_append, Bool.and_eq_true, List.head?_cons, List.tail_cons] at h ⊢
    exact ⟨h.1, beginsWith_append h.2 fun s hs => hn s (List.mem_cons_of_mem _ hs)⟩

theorem map_sy (s : List Char) : s.map sy = (s.map fun c => [c]).map Node.symbol := by
  simp [sy, Function.comp_def]

theorem flatten_map (s : List Char) : (s.map fun c => [c]).flatten = s := by
  induction s with
  | nil => rfl
  | cons c s ih => simp only [List.map_cons, List.flatten_cons, ih, List.singleton_append]

theorem beginsWith_map : ∀ {s t : List Char},
    beginsWith (s.map fun c => [c]) (t.map sy) = true → s <+: t
  | [], _, _ => List.nil_prefix
  | c :: s, [], h => by simp [beginsWith, isSym] at h
  | c :: s, d :: t, h => by
    simp only [List.map_cons, beginsWith, List.head?_cons, isSym, sy, List.tail_cons, Bool.and_eq_true,
      beq_iff_eq, List.cons.injEq, and_true] at h
    rw [h.1, List.cons_prefix_cons]
    exact ⟨rfl, beginsWith_map h.2⟩

theorem tokenParse_symbols {call : Rec} {row rest : Row} {pos : Nat} {s : List Char} {ty : LeafType}
    (h : row.drop pos = s.map sy ++ rest) :
    tokenParse call g (.symbols (s.map fun c => [c]) ty) row pos =
      .ok (some (.leaf ty [s], pos + s.length)) := by
  have hp : ((s.map fun c => [c]).map Node.symbol).isPrefixOf (row.drop pos) = true := by
    rw [List.isPrefixOf_iff_prefix, h, map_sy]
    exact List.prefix_append ..
  simp only [tokenParse, justSymbols, hp, if_true, flatten_map, List.length_map, Option.map_some]

theorem tokenParse_symbol {call : Rec} {row rest : Row} {pos : Nat} {c : Char} {ty : LeafType}
    (h : row.drop pos = sy c :: rest) :
    tokenParse call g (.symbols [[c]] ty) row pos = .ok (some (.leaf ty [[c]], pos + 1)) :=
  tokenParse_symbols (s := [c]) h

/-- The first rule of the role that can start here is chosen. -/
theorem chosen_first {role : Role} {rs rs' : List Rule} (hrs : g.ofRole role = rs) {row rest : Row}
    {pos i p f : Nat} {r : Rule} {t : SNode}
    (hd : row.drop pos = sp i ++ rest) (hs : isSym [' '] rest.head? = false)
    (hf : (rs.filter fun r => starts g rest r.parser) = r :: rs')
    (h : ruleParse (pratt g f) g r row pos = .ok (some (t, p))) : Chosen g role row pos t r p := by
  apply chosen_of_parseIter (f := f)
  rw [hrs, parseIter_starts hd hs, hf, parseIter, h]
  rfl

theorem noneOf_here {role : Role} {rs : List Rule} (hrs : g.ofRole role = rs) {row rest : Row}
    {pos i : Nat} (hd : row.drop pos = sp i ++ rest) (hs : isSym [' '] rest.head? = false)
    (hf : (rs.filter fun r => starts g rest r.parser) = []) : NoneOf g role row pos := by
  apply noneOf_of_parseIter (f := 0)
  rw [hrs, parseIter_starts hd hs, hf]
  rfl

theorem filter_skip {α : Type} {p : α → Bool} {a : α} {l l' : List α} (h : p a = false)
    (hl : l.filter p = l') : (a :: l).filter p = l' := by
  rw [List.filter_cons_of_neg (by simp [h]), hl]

theorem filter_keep {α : Type} {p : α → Bool} {a : α} {l l' : List α} (h : p a = true)
    (hl : l.filter p = l') : (a :: l).filter p = a :: l' := by
  rw [List.filter_cons_of_pos h, hl]

theorem leaf_new (name lo hi : Nat) (ty : LeafType) (ss : List Str) :
    SNode.new name lo hi (.leaf ty ss) = .ok (.leaf name lo hi ty ss) := rfl

theorem rows_new (name lo hi : Nat) (ts : List SNode) (w : Nat) :
    SNode.new name lo hi (.newRows ts w) = .ok (.newRows name lo hi ts w) := rfl

/-! ## Operators -/

def BinOp.number : BinOp → Nat
  | equals => 28 | greater => 29 | less => 30 | greaterEq => 31 | lessEq => 32 | tuple => 27
  | add => 15 | subtract => 16 | and => 36 | or => 37 | not => 38 | equivalent => 39 | implies => 40
  | multiply => 17 | divide => 18

/-- The binding power of a level. -/
def pw : Nat → Nat
  | 1 => 40 | 2 => 50 | 3 => 100 | 4 => 200 | 5 => 400 | 6 => 600 | _ => 0

def BinOp.rule (o : BinOp) : Rule :=
  ⟨o.number, .leftInfix (pw o.level), .symbols [[o.char]] .operator⟩

def PreOp.number : PreOp → Nat
  | plus => 15 | minus => 16
  | sum => 25 | integral => 26 | lim => 22 | limSup => 23 | limInf => 24

def PreOp.rule (o : PreOp) : Rule :=
  ⟨o.number, .prefix (pw o.level), .symbols (o.text.map fun c => [c]) .operator⟩

def PostOp.rule : PostOp → Rule
  | factorial => ⟨20, .postfix 600, .symbols [['!']] .operator⟩
  | exponent => ⟨19, .postfix 850, .symbols [['^']] .operator⟩

theorem sign_of (S : Std x g m) {s : List Char} {lo hi : Nat} {ty : LeafType} {t : SNode}
    (h : Spaced m (.leaf 0 lo hi ty [s]) t) : IsSign m s t :=
  ⟨0, lo, hi, ty, h, S.numbers (("BuiltIn", "Operator"), 0) (by decide +kernel)⟩

theorem script_of (S : Std x g m) {y : SNode} {lo hi w : Nat} {t : SNode}
    (h : Spaced m (.newRows 0 lo hi [y] w) t) : IsScript m y t :=
  ⟨0, lo, hi, w, h, S.numbers (("BuiltIn", "Operator"), 0) (by decide +kernel)⟩

theorem parseContainer_one {call : Rec} {v : Variant} {row : Row} {pos w : Nat} {cells : List Row}
    {ts : List SNode} (h : row[pos]? = some (.container v cells w))
    (hc : parseCells call cells = .ok ts) (hw : w ≠ 0) (hm : ts.length % w = 0) :
    parseContainer call v row pos = .ok (some (.newRows ts w, pos + 1)) := by
  simp only [parseContainer, h, if_true, hc, M.ok_bind, GridVec.fromOneDimensional, if_neg hw,
    if_pos hm]

theorem parseScript_one (S : Std x g m) {call : Rec} {v : Variant} {row rest : Row} {pos k : Nat}
    {cell : Row} {t : SNode} (h : row.drop pos = .container v [cell] 1 :: (sp k ++ rest))
    (hc : parseCells call [cell] = .ok [t]) (hs : isSym [' '] rest.head? = false) :
    ∃ s, parseScript call g v row pos = .ok (some (s, pos + 1 + k)) ∧ IsScript m t s ∧ s.lo = pos ∧
      s.hi = pos + 1 + k := by
  obtain ⟨h0, h1⟩ := drop_cons h
  obtain ⟨s, h2, h3, h4, h5⟩ := whitespaces_spaced S
    (.newRows 0 pos (pos + 1) [t] 1) (i := 0) (k := k) (lo := pos) rfl
  refine ⟨s, ?_, script_of S h3, h4, h5⟩
  have h2 : g.builtIn.whitespacesNode none (.newRows 0 pos (pos + 1) [t] 1) (blanks g (pos + 1) k)
    pos (pos + 1 + k) = .ok s := h2
  have hop : g.builtIn.operator = 0 := by rw [S.builtIn]
  simp only [parseScript, parseContainer_one h0 hc Nat.one_ne_zero (Nat.mod_one _), M.ok_bind,
    rows_new, parseSpaces_sp h1 hs, hop, h2]

theorem buildPostfix_one {name : Nat} {op left : SNode} (h1 : left.lo ≤ op.lo)
    (h2 : left.hi = op.lo) (h3 : left.hi ≤ op.hi) :
    buildPostfix name op left = .ok (.children name left.lo op.hi [left, op]) := by
  have hc : SNode.combinedRange (.children [left, op]) = .ok (some (left.lo, op.hi)) := by
    simp only [SNode.combinedRange, SNode.contiguousFrom, h2, beq_self_eq_true]
    rfl
  simp only [buildPostfix, combineRanges, SNode.range, Nat.min_eq_left h1, Nat.max_eq_right h3,
    SNode.new, hc, M.ok_bind, SNode.make]
  simp [massert, M.ok_bind]

theorem isSome_length {row : Row} {p : Nat} {n : Node} {rest : Row} (h : row.drop p = n :: rest) :
    p + 1 ≤ row.length := by
  have := congrArg List.length h
  simp only [List.length_drop, List.length_cons] at this
  omega

def ScriptKind.number : ScriptKind → Nat
  | sub => 3
  | sup => 4

theorem ScriptKind.named (S : Std x g m) (k : ScriptKind) : IsNamed m k.path k.number :=
  S.numbers (k.path, k.number) (by cases k <;> decide +kernel)

theorem writesOp_sign {sign : List Char} {ss : List (ScriptKind × Row)} {w : Row}
    (h : WritesOp sign ss w) : ∃ w', w = sign.map sy ++ w' := by
  induction h with
  | sign j => exact ⟨_, rfl⟩
  | script j _ ih =>
    obtain ⟨w', rfl⟩ := ih
    exact ⟨_, by rw [List.append_assoc]⟩

theorem parseScripts_one (S : Std x g m) (k : ScriptKind) {call : Rec} {row rest q : Row}
    {pos j : Nat} {op t : SNode} (h : row.drop pos = .container k.variant [q] 1 :: (sp j ++ rest))
    (hc : parseCells call [q] = .ok [t]) (hs : isSym [' '] rest.head? = false) (hhi : op.hi = pos)
    (hlo : op.lo ≤ pos) :
    ∃ s, IsScript m t s ∧ ∀ n, parseScripts call g row (n + 1) op pos =
      parseScripts call g row n (.children k.number op.lo (pos + 1 + j) [op, s]) (pos + 1 + j) := by
  obtain ⟨s, h1, h2, h3, h4⟩ := parseScript_one S h hc hs
  refine ⟨s, h2, fun n => ?_⟩
  have hb : ∀ name, buildPostfix name s op = .ok (.children name op.lo (pos + 1 + j) [op, s]) := by
    intro name
    rw [buildPostfix_one (by omega) (by omega) (by omega), h4]
  cases k with
  | sub =>
    have h1 : parseScript call g .sub row pos = .ok (some (s, pos + 1 + j)) := h1
    rw [parseScripts, h1]
    simp only [M.ok_bind, hb, S.builtIn]
    rfl
  | sup =>
    have h1 : parseScript call g .sup row pos = .ok (some (s, pos + 1 + j)) := h1
    rw [parseScripts, parseScript, parseContainer_none (by
      rw [drop_head h]; simp [ScriptKind.variant])]
    simp only [M.ok_bind, h1, hb, S.builtIn]
    rfl

/-- An operator with scripts, up to some script. -/
theorem op_scripts (S : Std x g m) {r : Rule} {sign : List Char} {call : Rec} {row : Row} {pos i : Nat}
    (hr : r.parser = .symbols (sign.map fun c => [c]) .operator) (hk : r.kind.takesScripts = true)
    (hn : tokenName g r = 0) (hsp : ∀ rest, isSym [' '] (sign.map sy ++ rest).head? = false)
    {ss : List (ScriptKind × Row)} {w : Row} (hw : WritesOp sign ss w) :
    ∀ (zs : List (ScriptKind × Row × SNode)) (rest : Row), ss = zs.map (fun z => (z.1, z.2.1)) →
      (∀ z ∈ zs, parseCells call [z.2.1] = .ok [z.2.2]) → row.drop pos = sp i ++ (w ++ rest) →
      isSym [' '] rest.head? = false →
      ∃ t, IsOp m sign (zs.map fun z => (z.1, z.2.2)) t ∧ t.lo = pos ∧ t.hi = pos + i + w.length ∧
        ∀ n res, n + ss.length = row.length + 1 →
          parseScripts call g row n t (pos + i + w.length) = .ok res →
          ruleParse call g r row pos = .ok (some res) := by
  induction hw with
  | sign j =>
    intro zs rest hz _ h hs
    obtain rfl : zs = [] := by cases zs <;> simp_all
    have hd : row.drop pos = sp i ++ (sign.map sy ++ (sp j ++ rest)) := by rw [h, List.append_assoc]
    have h' := drop_sp hd
    have h'' := drop_append h'
    rw [List.length_map] at h''
    obtain ⟨op, h1, h2, h3, h4⟩ := whitespaces_spaced S
      (.leaf 0 (pos + i) (pos + i + sign.length) .operator [sign]) (i := i) (k := j) (lo := pos) rfl
    have hl : pos + i + (sign.map sy ++ sp j).length = pos + i + sign.length + j := by
      simp [sp]; omega
    rw [hl]
    refine ⟨op, .sign (sign_of S h2), h3, h4, fun n res hn' hq => ?_⟩
    obtain rfl : n = row.length + 1 := by simpa using hn'
    have ht : tokenParse call g r.parser row (pos + i) =
        .ok (some (.leaf .operator [sign], pos + i + sign.length)) := by
      rw [hr]; exact tokenParse_symbols h'
    have h1 : g.builtIn.whitespacesNode (blanks g pos i)
      (.leaf 0 (pos + i) (pos + i + sign.length) .operator [sign])
      (blanks g (pos + i + sign.length) j) pos (pos + i + sign.length + j) = .ok op := h1
    unfold ruleParse
    rw [parseSpaces_sp hd (hsp _)]
    simp only [M.ok_bind, ht, hn, leaf_new, parseSpaces_sp h'' hs, h1, hk, if_true, hq]
  | @script ss w k q j _ ih =>
    intro zs rest hz hc h hs
    obtain ⟨zs, z', rfl, rfl, hz'⟩ := List.map_eq_append_iff.1 hz.symm
    obtain ⟨z, rfl, hz'⟩ := List.map_eq_singleton_iff.1 hz'
    obtain ⟨k', q', t⟩ := z
    obtain ⟨rfl, rfl⟩ : k' = k ∧ q' = q := by simpa using hz'
    obtain ⟨op, h1, h2, h3, h4⟩ := ih zs (.container k'.variant [q'] 1 :: (sp j ++ rest)) rfl
      (fun z hz => hc z (List.mem_append_left _ hz)) (by rw [h]; simp) rfl
    have hd : row.drop (pos + i + w.length) = .container k'.variant [q'] 1 :: (sp j ++ rest) :=
      drop_append (drop_sp (by rw [h]; simp))
    have hl : pos + i + (w ++ Node.container k'.variant [q'] 1 :: sp j).length =
        pos + i + w.length + 1 + j := by
      simp [sp]; omega
    obtain ⟨s, h5, h6⟩ := parseScripts_one S k' hd (hc (k', q', t) (by simp)) hs h3 (by omega)
    rw [hl]
    refine ⟨_, .script h1 (k'.named S) h5 (by simp), h2, rfl, fun n res hn' hq => ?_⟩
    refine h4 (n + 1) res ?_ ?_
    · rw [← hn', List.length_append, List.length_singleton]; omega
    · rw [h6]; exact hq

theorem drop_mid {row : Row} {pos i : Nat} {a rest : Row} (h : row.drop pos = sp i ++ (a ++ rest)) :
    row.drop (pos + i + a.length) = rest := drop_append (drop_sp h)

theorem writesOp_length {sign : List Char} {ss : List (ScriptKind × Row)} {w : Row}
    (h : WritesOp sign ss w) : ss.length ≤ w.length := by
  induction h with
  | sign j => simp
  | script j _ ih => simp; omega

/-- An operator with all its scripts. -/
theorem op_parse (S : Std x g m) (hx : x.Usual) {r : Rule} {sign : List Char} {call : Rec}
    {row rest : Row} {pos i : Nat}
    (hr : r.parser = .symbols (sign.map fun c => [c]) .operator) (hk : r.kind.takesScripts = true)
    (hn : tokenName g r = 0) (hsp : ∀ rest, isSym [' '] (sign.map sy ++ rest).head? = false)
    {zs : List (ScriptKind × Row × SNode)} {w : Row} (hw : WritesOp sign (zs.map fun z => (z.1, z.2.1)) w)
    (hc : ∀ z ∈ zs, parseCells call [z.2.1] = .ok [z.2.2]) (h : row.drop pos = sp i ++ (w ++ rest))
    (hf : firstOk x rest.head? = true) :
    ∃ t, IsOp m sign (zs.map fun z => (z.1, z.2.2)) t ∧ t.lo = pos ∧
      ruleParse call g r row pos = .ok (some (t, pos + i + w.length)) := by
  obtain ⟨t, h1, h2, -, h4⟩ := op_scripts S hr hk hn hsp hw zs rest rfl hc h (firstOk_not hx hf (by simp))
  refine ⟨t, h1, h2, ?_⟩
  have h5 := drop_mid h
  have hlen := congrArg List.length h
  have h6 := writesOp_length hw
  rw [List.length_map] at h6
  simp only [List.length_drop, List.length_append] at hlen
  obtain ⟨n, hn⟩ : ∃ n, n + 1 + zs.length = row.length + 1 := ⟨row.length - zs.length, by omega⟩
  exact h4 (n + 1) _ (by rw [List.length_map]; exact hn)
    (parseScripts_stop (by rw [drop_head h5]; exact firstOk_script hf))

theorem infix_chosen (S : Std x g m) (hx : x.Usual) (o : BinOp) {row rest w : Row} {p f : Nat}
    {zs : List (ScriptKind × Row × SNode)}
    (hw : WritesOp [o.char] (zs.map fun z => (z.1, z.2.1)) w)
    (hc : ∀ z ∈ zs, parseCells (pratt g f) [z.2.1] = .ok [z.2.2])
    (h : row.drop p = w ++ rest) (hr : firstOk x rest.head? = true) :
    ∃ t, Chosen g .infix row p t o.rule (p + w.length) ∧
      IsOp m [o.char] (zs.map fun z => (z.1, z.2.2)) t := by
  have hd : row.drop p = sp 0 ++ (w ++ rest) := h
  obtain ⟨t, h1, -, h2⟩ := op_parse S hx (r := o.rule) rfl rfl
    (by simp only [tokenName, BinOp.rule, S.builtIn]) (by cases o <;> exact fun _ => rfl) hw hc hd hr
  refine ⟨t, ?_, h1⟩
  obtain ⟨w', rfl⟩ := writesOp_sign hw
  exact chosen_first (role := .infix) (rs := shippedInfixes) S.infixes hd (by cases o <;> rfl)
    (by cases o <;> rfl) h2

theorem joins_eq (r : Row) : PreOp.joins .lim r =
    (beginsWith [['l'], ['i'], ['m'], ['s'], ['u'], ['p']] r ||
      beginsWith [['l'], ['i'], ['m'], ['i'], ['n'], ['f']] r) := by
  have : ∀ s : List Char, (s.map sy).isPrefixOf r = beginsWith (s.map fun c => [c]) r := by
    intro s
    rw [Bool.eq_iff_iff, List.isPrefixOf_iff_prefix, beginsWith_iff, map_sy]
  rw [PreOp.joins, this, this]
  rfl

theorem pre_filter (o : PreOp) {rest : Row} (h : o.joins (o.text.map sy ++ rest) = false) :
    ∃ rs, (shippedPrefixes.filter fun r => starts g (o.text.map sy ++ rest) r.parser) = o.rule :: rs := by
  cases o with
  | lim =>
    rw [joins_eq, Bool.or_eq_false_iff] at h
    refine ⟨[], ?_⟩
    refine filter_skip rfl (filter_skip rfl (filter_skip ?_ (filter_skip ?_ (filter_keep rfl
      (filter_skip rfl (filter_skip rfl rfl))))))
    · exact h.2
    · exact h.1
  | limSup => exact ⟨[PreOp.lim.rule], rfl⟩
  | limInf => exact ⟨[PreOp.lim.rule], rfl⟩
  | _ => exact ⟨_, rfl⟩

theorem pre_space (o : PreOp) (rest : Row) : isSym [' '] (o.text.map sy ++ rest).head? = false := by
  cases o <;> rfl

theorem prefix_chosen (S : Std x g m) (hx : x.Usual) (o : PreOp) {row rest w : Row} {pos i f : Nat}
    {zs : List (ScriptKind × Row × SNode)}
    (hw : WritesOp o.text (zs.map fun z => (z.1, z.2.1)) w)
    (hc : ∀ z ∈ zs, parseCells (pratt g f) [z.2.1] = .ok [z.2.2])
    (h : row.drop pos = sp i ++ (w ++ rest)) (hj : o.joins (w ++ rest) = false)
    (hr : firstOk x rest.head? = true) :
    ∃ t, Chosen g .prefix row pos t o.rule (pos + i + w.length) ∧
      IsOp m o.text (zs.map fun z => (z.1, z.2.2)) t ∧ t.lo = pos := by
  obtain ⟨t, h1, h3, h2⟩ := op_parse S hx (r := o.rule) rfl rfl
    (by simp only [tokenName, PreOp.rule, S.builtIn]) (pre_space o) hw hc h hr
  refine ⟨t, ?_, h1, h3⟩
  obtain ⟨w', rfl⟩ := writesOp_sign hw
  rw [List.append_assoc] at h hj
  obtain ⟨rs, hf⟩ := pre_filter (g := g) o hj
  exact chosen_first (role := .prefix) (rs := shippedPrefixes) S.prefixes h (pre_space ..) hf h2

theorem postfix_chosen (S : Std x g m) (o : PostOp) {row rest : Row} {p k : Nat}
    (h : row.drop p = sy o.char :: (sp k ++ rest)) (hr : afterOk rest.head? = true) :
    ∃ t, NoneOf g .infix row p ∧ Chosen g .postfix row p t o.rule (p + 1 + k) ∧
      IsSign m [o.char] t ∧ t.hi = p + 1 + k := by
  have hd : row.drop p = sp 0 ++ sy o.char :: (sp k ++ rest) := h
  have hs : isSym [' '] (sy o.char :: (sp k ++ rest)).head? = false := by cases o <;> rfl
  obtain ⟨t, h1, h2, -, h3⟩ := ruleParse_plain (call := pratt g 0) (r := o.rule)
    (c := .leaf .operator [[o.char]]) S hd hs
    (by cases o <;> exact tokenParse_symbol h) (leaf_new ..) rfl rfl (drop_cons h).2
    (after_not_script hr) fun hk => by cases o <;> cases hk
  refine ⟨t, noneOf_here (role := .infix) (rs := shippedInfixes) S.infixes hd hs (by cases o <;> rfl),
    chosen_first (role := .postfix) (rs := shippedPostfixes) (rs' := []) S.postfixes hd hs
    (by cases o <;> rfl) h1, sign_of S (ty := .operator) (lo := p) (hi := p + 1) ?_, h3⟩
  cases o <;> simpa only [tokenName, PostOp.rule, S.builtIn, Nat.add_zero] using h2

def ScriptKind.rule (k : ScriptKind) : Rule := ⟨k.number, .postfix 1000, .container k.variant⟩

theorem script_chosen (S : Std x g m) (up : ScriptKind) {row rest cell : Row} {p k f : Nat} {t : SNode}
    (h : row.drop p = .container up.variant [cell] 1 :: (sp k ++ rest))
    (hc : parseCells (pratt g f) [cell] = .ok [t]) (hr : afterOk rest.head? = true) :
    ∃ s, NoneOf g .infix row p ∧ Chosen g .postfix row p s up.rule (p + 1 + k) ∧
      IsScript m t s ∧ s.hi = p + 1 + k := by
  have hd : row.drop p = sp 0 ++ .container up.variant [cell] 1 :: (sp k ++ rest) := h
  obtain ⟨s, h1, h2, -, h3⟩ := ruleParse_plain (call := pratt g f) (r := up.rule)
    (c := .newRows [t] 1) (p := p + 1) S hd rfl
    (parseContainer_one (drop_cons h).1 hc Nat.one_ne_zero (Nat.mod_one _))
    (rows_new ..) rfl rfl (drop_cons h).2 (after_not_script hr) nofun
  refine ⟨s, noneOf_here (role := .infix) (rs := shippedInfixes) S.infixes hd rfl (by cases up <;> rfl),
    chosen_first (role := .postfix) (rs := shippedPostfixes) (rs' := []) (f := f) S.postfixes hd rfl
    (by cases up <;> rfl) h1, script_of S (lo := p) (hi := p + 1) (w := 1) ?_, h3⟩
  simpa only [tokenName, ScriptKind.rule, S.builtIn, Nat.add_zero] using h2

/-! ## Operands -/

/-- The formula is read as one token from `pos` to `q`. -/
def ReadAs (g : Grammar) (m : NameMap) (row : Row) (e : Formula) (pos q : Nat) : Prop :=
  ∃ t r, NoneOf g .prefix row pos ∧ Chosen g .atom row pos t r q ∧ Conveys m t e ∧ t.lo = pos ∧
    t.hi = q

theorem conveys_spaced {t t' : SNode} {e : Formula} (h : Spaced m t t') (he : Conveys m t e) :
    Conveys m t' e := by
  cases h with
  | none => exact he
  | some hn hc hs => exact .spaces hn hc hs he

theorem readAs (S : Std x g m) {e : Formula} {row rest0 rest : Row} {pos i k p f : Nat} {r : Rule}
    {rs : List Rule} {c : SChildren} {t : SNode} (hd : row.drop pos = sp i ++ rest0)
    (hs : isSym [' '] rest0.head? = false)
    (hpf : (shippedPrefixes.filter fun r => starts g rest0 r.parser) = [])
    (haf : (shippedAtoms.filter fun r => starts g rest0 r.parser) = r :: rs)
    (hk : r.kind = .atom)
    (ht : tokenParse (pratt g f) g r.parser row (pos + i) = .ok (some (c, p)))
    (hn : SNode.new r.name (pos + i) p c = .ok t) (hlo : t.lo = pos + i) (hhi : t.hi = p)
    (hp : row.drop p = sp k ++ rest) (ha : afterOk rest.head? = true) (he : Conveys m t e) :
    ReadAs g m row e pos (p + k) := by
  have hn' : SNode.new (tokenName g r) (pos + i) p c = .ok t := by
    rw [tokenName, hk]
    exact hn
  obtain ⟨t', h1, h2, h3, h4⟩ := ruleParse_plain S hd hs ht hn' hlo hhi hp (after_not_script ha)
    (by rw [hk]; nofun)
  exact ⟨t', r, noneOf_here (role := .prefix) (rs := shippedPrefixes) S.prefixes hd hs hpf,
    chosen_first (role := .atom) (rs := shippedAtoms) (f := f) S.atoms hd hs haf h1,
    conveys_spaced h2 he, h3, h4⟩

theorem no_prefixes {n : Node} {rest : Row}
    (hc : ∀ c ∈ ['∫', '∑', '-', '+'], isSym [c] (some n) = false)
    (hl : beginsWith [['l'], ['i'], ['m']] (n :: rest) = false) :
    (shippedPrefixes.filter fun r => starts g (n :: rest) r.parser) = [] := by
  have h1 : ∀ c ∈ ['∫', '∑', '-', '+'], starts g (n :: rest) (.symbols [[c]] .operator) = false := by
    intro c h
    simp only [starts, beginsWith, List.head?_cons, hc c h, Bool.false_and]
  refine filter_skip (h1 _ (by simp)) (filter_skip (h1 _ (by simp)) (filter_skip ?_ (filter_skip ?_
    (filter_skip hl (filter_skip (h1 _ (by simp)) (filter_skip (h1 _ (by simp)) rfl))))))
  · exact beginsWith_left (a := [['l'], ['i'], ['m']]) (b := [['i'], ['n'], ['f']]) hl
  · exact beginsWith_left (a := [['l'], ['i'], ['m']]) (b := [['s'], ['u'], ['p']]) hl

/-- A leaf made of the symbol of a constant. -/
theorem constant_read (S : Std x g m) (hx : x.Usual) (c : Constant) {row rest : Row} {pos i k : Nat}
    (h : row.drop pos = sp i ++ (sy c.char :: (sp k ++ rest))) (hr : afterOk rest.head? = true) :
    ReadAs g m row (.constant c) pos (pos + i + 1 + k) := by
  have hv : x.start c.char = false := (hx.reserved _ (by cases c <;> decide +kernel)).1
  have h' := drop_sp h
  have hq := (drop_cons h').2
  cases c with
  | infinity =>
    have hv : x.start '∞' = false := hv
    refine readAs (f := 0) (r := ⟨21, .atom, .symbols [['∞']] .symbol⟩) (rs := []) S h rfl rfl ?_ rfl
      (tokenParse_symbol h') (leaf_new ..) rfl rfl hq hr
      (.constant (S.numbers (("Calculus", "Infinity"), 21) (by decide +kernel)) rfl)
    simp [shippedAtoms, starts, beginsWith, isSym, sy, isDigits, Constant.char, isIdentifierStart,
      S.start, hv]
  | true =>
    have hv : x.start '⊤' = false := hv
    refine readAs (f := 0) (r := ⟨34, .atom, .symbols [['⊤']] .symbol⟩) (rs := []) S h rfl rfl ?_ rfl
      (tokenParse_symbol h') (leaf_new ..) rfl rfl hq hr
      (.constant (S.numbers (("Logic", "True"), 34) (by decide +kernel)) rfl)
    simp [shippedAtoms, starts, beginsWith, isSym, sy, isDigits, Constant.char, isIdentifierStart,
      S.start, hv]
  | false =>
    have hv : x.start '⊥' = false := hv
    refine readAs (f := 0) (r := ⟨35, .atom, .symbols [['⊥']] .symbol⟩) (rs := []) S h rfl rfl ?_ rfl
      (tokenParse_symbol h') (leaf_new ..) rfl rfl hq hr
      (.constant (S.numbers (("Logic", "False"), 35) (by decide +kernel)) rfl)
    simp [shippedAtoms, starts, beginsWith, isSym, sy, isDigits, Constant.char, isIdentifierStart,
      S.start, hv]

theorem start_ne (hx : x.Usual) {c : Char} (h : x.start c = true) {r : Char}
    (hr : r ∈ reservedChars) : c ≠ r := by
  rintro rfl
  rw [(hx.reserved _ hr).1] at h
  cases h

theorem not_digits (hx : x.Usual) {c : Char} (hc : x.start c = true) : isDigits [c] = false := by
  cases hd : isDigits [c] with
  | false => rfl
  | true =>
    have : c.isDigit = true := by
      simpa [isDigits, Char.isDigit, Char.le_def] using hd
    rw [hx.digits c this] at hc
    cases hc

theorem symRun_map {f : Str → Bool} : ∀ (ds : List Char) (rest : Row), (∀ c ∈ ds, f [c] = true) →
    (∀ s, rest.head? = some (.symbol s) → f s = false) →
    symRun f (ds.map sy ++ rest) = ds.map fun c => [c]
  | [], rest, _, hr => by
    have := symRun_nil (f := f) (row := rest) (pos := 0) (fun s hs => hr s (by rw [← hs, List.head?_eq_getElem?]))
    simpa using this
  | c :: ds, rest, h, hr => by
    simp only [List.map_cons, List.cons_append, sy, symRun, h c (List.mem_cons_self ..), if_true]
    rw [symRun_map ds rest (fun c hc => h c (List.mem_cons_of_mem _ hc)) hr]

theorem variable_read (S : Std x g m) (hx : x.Usual) {s : List Char} (hs : IsName x s)
    {row rest : Row} {pos i k : Nat}
    (h : row.drop pos = sp i ++ (s.map sy ++ (sp k ++ rest))) (hr : afterOk rest.head? = true) :
    ReadAs g m row (.variable s) pos (pos + i + s.length + k) := by
  obtain ⟨c, cs, rfl, hc, hcs, hlim⟩ := hs
  have hne : ∀ r ∈ reservedChars, c ≠ r := fun r hr => start_ne hx hc hr
  have hd := not_digits hx hc
  have h' := drop_sp h
  have hq := drop_append h'
  rw [List.length_map] at hq
  obtain ⟨h0, h1⟩ := drop_cons h'
  have hst := stopOk_head (k := k) hr
  refine readAs (f := 0) (r := ⟨12, .atom, .variable⟩) (rs := [])
    (c := .leaf .symbol ((c :: cs).map fun c => [c])) S h ?_ ?_ ?_ rfl ?_
    (leaf_new ..) rfl rfl hq hr (.variable (S.numbers (("Core", "Variable"), 12) (by decide +kernel)) rfl)
  · simp [isSym, sy, hne ' ' (by decide +kernel)]
  · refine no_prefixes ?_ ?_
    · intro r hr
      have : r ∈ reservedChars := by revert r; decide +kernel
      simp [isSym, sy, hne r this]
    · cases hb : beginsWith [['l'], ['i'], ['m']] (sy c :: (List.map sy cs ++ (sp k ++ rest))) with
      | false => rfl
      | true =>
        have hb : beginsWith [['l'], ['i'], ['m']] ((c :: cs).map sy ++ (sp k ++ rest)) = true := hb
        have := beginsWith_append hb (by
          simp only [List.mem_cons, List.not_mem_nil, or_false, forall_eq_or_imp, forall_eq]
          exact ⟨stopOk_not hst (by decide +kernel) (by decide), stopOk_not hst (by decide +kernel) (by decide),
            stopOk_not hst (by decide +kernel) (by decide)⟩)
        exact absurd (beginsWith_map (s := ['l', 'i', 'm']) this) hlim
  · simp [shippedAtoms, starts, beginsWith, isSym, sy, hd, isIdentifierStart, S.start, hc,
      hne '(' (by decide +kernel), hne '"' (by decide +kernel), hne '∞' (by decide +kernel),
      hne '⊤' (by decide +kernel), hne '⊥' (by decide +kernel)]
  · have : selectSym (isIdentifierStart g) row (pos + i) = some ([c], pos + i + 1) := by
      simp [selectSym, h0, sy, isIdentifierStart, S.start, hc]
    have hrun : symRun (isIdentifierContinue g) (row.drop (pos + i + 1)) = cs.map fun c => [c] := by
      rw [h1]
      exact symRun_map _ _ (fun d hd => by simp [isIdentifierContinue, S.continue_, hcs d hd])
        (stopOk_continue S hx hst)
    simp [tokenParse, parseVariable, this, hrun]
    omega

theorem digit_digits {c : Char} (hc : c.isDigit = true) : isDigits [c] = true := by
  simpa [isDigits, Char.isDigit, Char.le_def] using hc

theorem numberDigits_run {ds : List Char} (hds : IsDigits ds) {row rest : Row} {p : Nat}
    (h : row.drop p = ds.map sy ++ rest)
    (hr : ∀ s, rest.head? = some (.symbol s) → isDigits s = false) :
    numberDigits row p = some (ds.map fun c => [c], p + ds.length) := by
  have hrun : symRun isDigits (row.drop p) = ds.map fun c => [c] := by
    rw [h]
    exact symRun_map _ _ (fun c hc => digit_digits (hds.2 c hc)) hr
  simp only [numberDigits, hrun]
  simp [hds.1]

theorem parseNumber_reads {s : List Char} (hs : IsNumber s) {row rest : Row} {p : Nat}
    (h : row.drop p = s.map sy ++ rest) (hr : stopOk rest.head? = true) :
    parseNumber row p = some (.leaf .symbol (s.map fun c => [c]), p + s.length) := by
  cases hs with
  | whole hds =>
    have hq := drop_head (drop_append h)
    rw [List.length_map] at hq
    have hdot : selectSym (fun s => s == ['.']) row (p + s.length) = none := by
      refine selectSym_none (isSym_false ?_)
      rw [hq]
      exact stopOk_not hr (by decide +kernel) (by decide)
    simp only [parseNumber, numberDigits_run hds h (stopOk_digits hr), parseFractional, hdot,
      Option.bind_eq_bind, Option.bind_some, Option.bind_none]
  | @decimal a b ha hb =>
    have h1 : row.drop p = a.map sy ++ (sy '.' :: (b.map sy ++ rest)) := by simpa using h
    have h2 := drop_append h1
    rw [List.length_map] at h2
    obtain ⟨h3, h4⟩ := drop_cons h2
    have hdot : selectSym (fun s => s == ['.']) row (p + a.length) =
        some (['.'], p + a.length + 1) := by
      simp [selectSym, h3, sy]
    have hn : ∀ s, (sy '.' :: (b.map sy ++ rest)).head? = some (.symbol s) → isDigits s = false := by
      intro s hs
      simp only [List.head?_cons, sy, Option.some.injEq, Node.symbol.injEq] at hs
      subst hs
      decide +kernel
    simp only [parseNumber, numberDigits_run ha h1 hn, parseFractional, hdot,
      numberDigits_run hb h4 (stopOk_digits hr), Option.bind_eq_bind, Option.bind_some]
    simp
    omega

theorem isNumber_cons {s : List Char} (h : IsNumber s) : ∃ d ds, s = d :: ds ∧ d.isDigit = true := by
  cases h with
  | whole h =>
    obtain ⟨d, ds, rfl⟩ := List.exists_cons_of_ne_nil h.1
    exact ⟨d, ds, rfl, h.2 d (List.mem_cons_self ..)⟩
  | decimal h _ =>
    obtain ⟨d, ds, rfl⟩ := List.exists_cons_of_ne_nil h.1
    exact ⟨d, _, rfl, h.2 d (List.mem_cons_self ..)⟩

theorem number_read (S : Std x g m) (hx : x.Usual) {s : List Char} (hs : IsNumber s)
    {row rest : Row} {pos i k : Nat}
    (h : row.drop pos = sp i ++ (s.map sy ++ (sp k ++ rest))) (hr : afterOk rest.head? = true) :
    ReadAs g m row (.number s) pos (pos + i + s.length + k) := by
  have h' := drop_sp h
  have hq := drop_append h'
  rw [List.length_map] at hq
  have ht := parseNumber_reads hs h' (stopOk_head hr)
  obtain ⟨d, ds, rfl, hd⟩ := isNumber_cons hs
  have hn : ∀ r ∈ ['(', '"', '∞', '⊤', '⊥', ' ', '∫', '∑', '-', '+', 'l'], d ≠ r := by
    rintro r hr rfl
    have : ∀ d ∈ ['(', '"', '∞', '⊤', '⊥', ' ', '∫', '∑', '-', '+', 'l'], d.isDigit = false := by
      decide +kernel
    rw [this d hr] at hd
    cases hd
  refine readAs (f := 0) (r := ⟨14, .atom, .number⟩) (rs := []) S h ?_ ?_ ?_ rfl
    (show _ = Except.ok (some (SChildren.leaf .symbol _, _)) by simp only [tokenParse, ht])
    (leaf_new ..) rfl rfl hq hr
    (.number (S.numbers (("Arithmetic", "Number"), 14) (by decide +kernel)) rfl)
  · simp [isSym, sy, hn ' ' (by decide)]
  · refine no_prefixes ?_ ?_
    · intro r hr
      simp [isSym, sy, hn r (by simp at hr ⊢; tauto)]
    · simp [beginsWith, isSym, sy, hn 'l' (by decide)]
  · simp [shippedAtoms, starts, beginsWith, isSym, sy, digit_digits hd, isIdentifierStart, S.start,
      hx.digits d hd, hn '(' (by decide), hn '"' (by decide), hn '∞' (by decide), hn '⊤' (by decide),
      hn '⊥' (by decide)]

theorem stringBody_cons (a : Str) (rest : Row) : stringBody (.symbol a :: rest) =
    if a == ['\\'] then
      match rest with
      | .symbol b :: rest' => a :: b :: stringBody rest'
      | _ => []
    else if a == ['"'] then [] else a :: stringBody rest := by
  rcases rest with _ | ⟨b | _, rest⟩ <;> rw [stringBody] <;> nofun

theorem stringBody_reads {s t : List Char} (h : Escapes s t) (rest : Row) :
    stringBody (t.map sy ++ sy '"' :: rest) = t.map fun c => [c] := by
  induction h with
  | nil =>
    rw [List.map_nil, List.nil_append, sy, stringBody_cons, if_neg (by decide), if_pos (by decide)]
    rfl
  | @plain c s t h1 h2 _ ih =>
    rw [List.map_cons, List.cons_append, sy, stringBody_cons, if_neg (by simpa using h2), if_neg (by simpa using h1)]
    exact congrArg _ ih
  | @escaped c s t _ ih =>
    rw [List.map_cons, List.map_cons, List.cons_append, List.cons_append, sy, sy, stringBody_cons,
      if_pos (by decide)]
    exact congrArg _ (congrArg _ ih)

theorem string_read (S : Std x g m) (hx : x.Usual) {s t : List Char} (hs : Escapes s t)
    {row rest : Row} {pos i k : Nat}
    (h : row.drop pos = sp i ++ ((sy '"' :: t.map sy ++ [sy '"']) ++ (sp k ++ rest)))
    (hr : afterOk rest.head? = true) :
    ReadAs g m row (.string s) pos (pos + i + (t.length + 2) + k) := by
  have h' := drop_sp h
  have h1 : row.drop (pos + i) = sy '"' :: (t.map sy ++ sy '"' :: (sp k ++ rest)) := by
    simpa using h'
  obtain ⟨h2, h3⟩ := drop_cons h1
  have h4 := drop_append h3
  rw [List.length_map] at h4
  obtain ⟨h5, h6⟩ := drop_cons h4
  have hv : x.start '"' = false := (hx.reserved _ (by decide +kernel)).1
  have hdg : isDigits ['"'] = false := by decide +kernel
  rw [show pos + i + (t.length + 2) + k = pos + i + 1 + t.length + 1 + k by omega]
  refine readAs (f := 0) (r := ⟨41, .atom, .string⟩) (rs := [])
    (c := .leaf .symbol (['"'] :: (t.map fun c => [c]) ++ [['"']])) S h rfl rfl ?_ rfl ?_
    (leaf_new ..) rfl rfl h6 hr (.string (S.numbers (("String", "String"), 41) (by decide +kernel)) hs rfl)
  · simp [shippedAtoms, starts, beginsWith, isSym, sy, hdg, isIdentifierStart, S.start, hv]
  · have e1 : selectSym (fun s => s == ['"']) row (pos + i) = some (['"'], pos + i + 1) := by
      simp [selectSym, h2, sy]
    have e2 : selectSym (fun s => s == ['"']) row (pos + i + 1 + t.length) =
        some (['"'], pos + i + 1 + t.length + 1) := by
      simp [selectSym, h5, sy]
    simp only [tokenParse, parseString, e1, Option.bind_eq_bind, Option.bind_some, h3,
      stringBody_reads hs, List.length_map, e2]

/-- The closing bracket is nothing but that. -/
theorem closing_none (S : Std x g m) (hx : x.Usual) {row rest : Row} {p : Nat}
    (h : row.drop p = sy ')' :: rest) : ∀ role, NoneOf g role row p := by
  have hd : row.drop p = sp 0 ++ sy ')' :: rest := h
  intro role
  cases role with
  | atom =>
    refine noneOf_here (g := g) (role := .atom) (rs := shippedAtoms) S.atoms hd rfl ?_
    have hv : x.start ')' = false := (hx.reserved _ (by decide +kernel)).1
    simp [shippedAtoms, starts, beginsWith, isSym, sy, isDigits, isIdentifierStart, S.start, hv]
  | «prefix» => exact noneOf_here (g := g) (role := .prefix) (rs := shippedPrefixes) S.prefixes hd rfl rfl
  | «infix» => exact noneOf_here (g := g) (role := .infix) (rs := shippedInfixes) S.infixes hd rfl rfl
  | «postfix» => exact noneOf_here (g := g) (role := .postfix) (rs := shippedPostfixes) S.postfixes hd rfl rfl

def containerNumber : Variant → Nat
  | .fraction => 9 | .root => 10 | _ => 11

theorem container_read (S : Std x g m) {e : Formula} {v : Variant} (hv : v = .fraction ∨ v = .root ∨ v = .table)
    {row rest : Row} {pos i k f w : Nat} {cells : List Row} {ts : List SNode}
    (h : row.drop pos = sp i ++ (.container v cells w :: (sp k ++ rest)))
    (hc : parseCells (pratt g f) cells = .ok ts) (hw : w ≠ 0) (hm : ts.length % w = 0)
    (hr : afterOk rest.head? = true)
    (he : ∀ lo hi, Conveys m (.newRows (containerNumber v) lo hi ts w) e) :
    ReadAs g m row e pos (pos + i + 1 + k) := by
  obtain ⟨h0, h1⟩ := drop_cons (drop_sp h)
  refine readAs (f := f) (r := ⟨containerNumber v, .atom, .container v⟩) (rs := []) S h rfl rfl ?_ rfl
    (parseContainer_one h0 hc hw hm) (rows_new ..) rfl rfl h1 hr (he ..)
  rcases hv with rfl | rfl | rfl <;> rfl

/-! ## Brackets -/

/-- The node of brackets around a tree. -/
def bracketed (name lo : Nat) (t : SNode) : SNode :=
  .children name lo (t.hi + 1) [.leaf 0 lo (lo + 1) .operator [['(']], t,
    .leaf 0 t.hi (t.hi + 1) .operator [[')']]]

theorem brackets_parse (S : Std x g m) {row inner rest : Row} {p : Nat}
    (hw : rowWf row = true) {T : PTree} (hT : T.Nested)
    (h : row.drop p = sy '(' :: inner ++ sy ')' :: rest)
    (hR : Reads g row (.sym [')']) .operand (p + 1) T.tokens (p + 1 + inner.length)) :
    tokenParse (pratt g (restWeight row (p + 1) + 1)) g (.brackets 0 ['('] [')']) row p =
      .ok (some (.children [.leaf 0 p (p + 1) .operator [['(']], T.node,
        .leaf 0 (p + 1 + inner.length) (p + 1 + inner.length + 1) .operator [[')']]],
        p + 1 + inner.length + 1)) := by
  obtain ⟨h0, h1⟩ := drop_cons h
  obtain ⟨h2, -⟩ := drop_cons (drop_append h1)
  have hlen : p + 1 ≤ row.length := (List.getElem?_eq_some_iff.1 h0).1
  obtain ⟨T', ht, hn, hp⟩ := pratt_reads S.good hw hlen hR
  obtain rfl := nested_unique hn hT ht
  have hs1 : selectSym (fun s => s == ['(']) row p = some (['('], p + 1) := by
    simp [selectSym, h0, sy]
  have hs2 : selectSym (fun s => s == [')']) row (p + 1 + inner.length) =
      some ([')'], p + 1 + inner.length + 1) := by
    simp [selectSym, h2, sy]
  simp only [tokenParse, parseBrackets, hs1, hp _ (Nat.lt_succ_self _), M.ok_bind, hs2, leaf_new,
    PResult.node]

theorem isSym_symbol (s t : Str) : isSym s (some (.symbol t)) = (t == s) := rfl

theorem open_atoms (S : Std x g m) (hx : x.Usual) {rest : Row} (h : isSym [')'] rest.head? = false) :
    (shippedAtoms.filter fun r => starts g (sy '(' :: rest) r.parser) =
      [⟨13, .atom, .brackets 0 ['('] [')']⟩] := by
  have hv : x.start '(' = false := (hx.reserved _ (by decide +kernel)).1
  have hdg : isDigits ['('] = false := by decide +kernel
  simp [shippedAtoms, starts, beginsWith, isSym_symbol, sy, h, hdg, isIdentifierStart, S.start, hv]

theorem open_postfixes {rest : Row} (h : isSym [')'] rest.head? = false) :
    (shippedPostfixes.filter fun r => starts g (sy '(' :: rest) r.parser) =
      [⟨33, .postfix 800, .brackets 0 ['('] [')']⟩] := by
  simp [shippedPostfixes, starts, beginsWith, isSym_symbol, sy, h]

theorem empty_token {call : Rec} {row rest : Row} {p : Nat}
    (h : row.drop p = sy '(' :: sy ')' :: rest) :
    tokenParse call g (.emptyBrackets 0 ['('] [')']) row p =
      .ok (some (.children [.leaf 0 p (p + 1) .operator [['(']],
        .leaf 0 (p + 1) (p + 1 + 1) .operator [[')']]], p + 1 + 1)) := by
  obtain ⟨h0, h1⟩ := drop_cons h
  obtain ⟨h2, -⟩ := drop_cons h1
  have hs1 : selectSym (fun s => s == ['(']) row p = some (['('], p + 1) := by
    simp [selectSym, h0, sy]
  have hs2 : selectSym (fun s => s == [')']) row (p + 1) = some ([')'], p + 1 + 1) := by
    simp [selectSym, h2, sy]
  simp only [tokenParse, parseEmptyBrackets, hs1, hs2, leaf_new, M.ok_bind]

theorem leaf_sign (S : Std x g m) {c : Char} {lo hi : Nat} {ty : LeafType} :
    IsSign m [c] (.leaf 0 lo hi ty [[c]]) := sign_of S .none

theorem unit_read (S : Std x g m) (hx : x.Usual) {row rest : Row} {pos i k : Nat}
    (h : row.drop pos = sp i ++ (sy '(' :: sy ')' :: (sp k ++ rest)))
    (hr : afterOk rest.head? = true) : ReadAs g m row .unit pos (pos + i + 2 + k) := by
  have h' := drop_sp h
  have hv : x.start '(' = false := (hx.reserved _ (by decide +kernel)).1
  have hdg : isDigits ['('] = false := by decide +kernel
  refine readAs (f := 0) (r := ⟨13, .atom, .emptyBrackets 0 ['('] [')']⟩)
    (rs := [⟨13, .atom, .brackets 0 ['('] [')']⟩]) S h rfl rfl ?_ rfl (empty_token h')
    (new_two rfl rfl) rfl rfl (drop_cons (drop_cons h').2).2 hr
    (.unit (S.numbers (("Core", "RoundBrackets"), 13) (by decide +kernel)) (leaf_sign S) (leaf_sign S))
  simp [shippedAtoms, starts, beginsWith, isSym_symbol, sy, hdg, isIdentifierStart, S.start, hv]

theorem call_chosen (S : Std x g m) {row rest : Row} {p k : Nat}
    (h : row.drop p = sy '(' :: sy ')' :: (sp k ++ rest)) (hr : afterOk rest.head? = true) :
    ∃ s l r, NoneOf g .infix row p ∧
      Chosen g .postfix row p s ⟨33, .postfix 800, .emptyBrackets 0 ['('] [')']⟩ (p + 2 + k) ∧
      Spaced m (.children 0 p (p + 2) [l, r]) s ∧ IsSign m ['('] l ∧ IsSign m [')'] r ∧
      s.hi = p + 2 + k := by
  have hd : row.drop p = sp 0 ++ sy '(' :: sy ')' :: (sp k ++ rest) := h
  have hn : tokenName g ⟨33, .postfix 800, .emptyBrackets 0 ['('] [')']⟩ = 0 := by
    simp only [tokenName, S.builtIn]
  obtain ⟨s, h1, h2, -, h3⟩ := ruleParse_plain (call := pratt g 0)
    (r := ⟨33, .postfix 800, .emptyBrackets 0 ['('] [')']⟩) S hd rfl
    (empty_token h) (by rw [hn]; exact new_two rfl rfl) rfl rfl (drop_cons (drop_cons h).2).2
    (after_not_script hr) nofun
  exact ⟨s, _, _, noneOf_here (role := .infix) (rs := shippedInfixes) S.infixes hd rfl rfl,
    chosen_first (role := .postfix) (rs := shippedPostfixes)
      (rs' := [⟨33, .postfix 800, .brackets 0 ['('] [')']⟩]) S.postfixes hd rfl rfl h1,
    h2, leaf_sign S, leaf_sign S, h3⟩

end Aftermath

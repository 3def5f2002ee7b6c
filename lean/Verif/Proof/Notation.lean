import Verif.Proof.NotationTokens

/-! # The shipped parser reads the usual notation -/

namespace Aftermath

variable {x : Xid} {g : Grammar} {m : NameMap}

/-- The tree `T` is what is read from `pos` to `q`, between operators of levels `l` and `r`. -/
structure Written (g : Grammar) (m : NameMap) (row : Row) (e : Formula) (l r pos q : Nat)
    (T : PTree) : Prop where
  nested : T.Nested
  meaning : Conveys m T.node e
  lo : T.node.lo = pos
  hi : T.node.hi = q
  left : ∀ o ∈ T.leftOps, pw l < o.power
  right : ∀ o ∈ T.rightOps, pw r ≤ o.power ∧ o.power ≤ 400 ∧ ∀ v, o.kind ≠ .rightInfix v
  reads : ∀ en ts q', Reads g row en .operator q ts q' → Reads g row en .operand pos (T.tokens ++ ts) q'

theorem pw_mono {l l' : Nat} (h : l ≤ l') (h6 : l' ≤ 6) : pw l ≤ pw l' := by
  have : ∀ l' ≤ 6, ∀ l ≤ l', pw l ≤ pw l' := by decide +kernel
  exact this l' h6 l h

theorem pw_strict {l l' : Nat} (h : l < l') (h6 : l' ≤ 6) : pw l < pw l' := by
  have : ∀ l' ≤ 6, ∀ l < l', pw l < pw l' := by decide +kernel
  exact this l' h6 l h

theorem Written.closed {row : Row} {e : Formula} {l pos q : Nat} {T : PTree}
    (h : Written g m row e l 6 pos q T) : T.rightOps = [] := by
  cases hT : T.rightOps with
  | nil => rfl
  | cons o os =>
    have h1 := h.right o (by rw [hT]; exact List.mem_cons_self ..)
    have h2 : 600 ≤ o.power := h1.1
    have h3 := h1.2.1
    omega

/-- Something that is one token. -/
theorem Written.operand {row : Row} {e : Formula} {l r pos q : Nat} {t : SNode} {rule : Rule}
    (hn : NoneOf g .prefix row pos) (hc : Chosen g .atom row pos t rule q) (hs : Conveys m t e)
    (hlo : t.lo = pos) (hhi : t.hi = q) : Written g m row e l r pos q (.operand rule t) where
  nested := trivial
  meaning := hs
  lo := hlo
  hi := hhi
  left := nofun
  right := nofun
  reads := fun _ _ _ h => .operand hn hc h

theorem Written.of_read {row : Row} {e : Formula} {l r pos q : Nat} (h : ReadAs g m row e pos q) :
    ∃ T, Written g m row e l r pos q T := by
  obtain ⟨t, r, h1, h2, h3, h4, h5⟩ := h
  exact ⟨_, .operand h1 h2 h3 h4 h5⟩

theorem Written.post {row : Row} {a e : Formula} {l r' pos p q : Nat} {T : PTree} {r : Rule} {op : SNode}
    (h : Written g m row a l 6 pos p T) (hn : NoneOf g .infix row p)
    (hc : Chosen g .postfix row p op r q) (hop : op.hi = q) (hp : 600 ≤ r.power) (h5 : l ≤ 5)
    (hs : Conveys m (.children r.name T.node.lo op.hi [T.node, op]) e) :
    Written g m row e l r' pos q (.post r op T) where
  nested := ⟨h.nested, by rw [h.closed]; nofun⟩
  meaning := hs
  lo := h.lo
  hi := hop
  left := fun o ho => by
    have h1 : pw l < 600 := pw_strict (l' := 6) (by omega) (Nat.le_refl _)
    rcases List.mem_cons.1 ho with rfl | ho
    · omega
    · exact h.left o ho
  right := nofun
  reads := fun en ts q' hr => by
    have := h.reads en _ q' (.post hn hc hr)
    simpa [PTree.tokens] using this

theorem PreOp.level_bounds (o : PreOp) : 3 ≤ o.level ∧ o.level ≤ 5 := by cases o <;> decide

theorem Written.pre {row : Row} {a e : Formula} {o : PreOp} {l r pos p q : Nat} {T : PTree} {op : SNode}
    (h : Written g m row a o.level r p q T)
    (hc : Chosen g .prefix row pos op o.rule p) (hop : op.lo = pos) (hr : r ≤ o.level)
    (hs : Conveys m (.children o.number op.lo T.node.hi [op, T.node]) e) :
    Written g m row e l r pos q (.pre o.rule op T) where
  nested := ⟨h.nested, fun r hr => .inl (h.left r hr)⟩
  meaning := hs
  lo := hop
  hi := h.hi
  left := nofun
  right := fun r' hr' => by
    have hb := o.level_bounds
    rcases List.mem_cons.1 hr' with rfl | hr'
    · exact ⟨pw_mono hr (by omega), pw_mono (l' := 5) hb.2 (by omega), nofun⟩
    · exact h.right r' hr'
  reads := fun en ts q' hr' => .pre hc (h.reads en ts q' hr')

theorem BinOp.level_bounds (o : BinOp) : 1 ≤ o.level ∧ o.level ≤ 4 := by cases o <;> decide

theorem Written.inf {row : Row} {a b e : Formula} {o : BinOp} {l r pos p p' q : Nat} {T U : PTree}
    {op : SNode} (h : Written g m row a l o.level pos p T)
    (hc : Chosen g .infix row p op o.rule p')
    (h' : Written g m row b o.level r p' q U) (hl : l < o.level) (hr : r ≤ o.level)
    (hs : Conveys m (.children o.number T.node.lo U.node.hi [T.node, op, U.node]) e) :
    Written g m row e l r pos q (.inf o.rule op T U) where
  nested := by
    refine ⟨h.nested, h'.nested, fun r hr => .inl (h'.left r hr), fun r hr ht => ?_⟩
    have h1 := h.right r hr
    have h3 : o.rule.power = pw o.level := rfl
    rcases ht with ht | ⟨-, ht | ⟨v, ht⟩⟩
    · omega
    · exact ht _ rfl
    · exact h1.2.2 v ht
  meaning := hs
  lo := h.lo
  hi := h'.hi
  left := fun r hr => by
    have hb := o.level_bounds
    rcases List.mem_cons.1 hr with rfl | hr
    · exact pw_strict hl (by omega)
    · exact h.left r hr
  right := fun r' hr' => by
    have hb := o.level_bounds
    rcases List.mem_cons.1 hr' with rfl | hr'
    · exact ⟨pw_mono hr (by omega), pw_mono (l' := 5) (by omega) (by omega), nofun⟩
    · exact h'.right r' hr'
  reads := fun en ts q' hr => by
    have := h.reads en _ q' (.inf hc (h'.reads en ts q' hr))
    simpa [PTree.tokens] using this

/-! ## Where a formula starts -/

theorem firstOk_reserved {c : Char} (h : c ∈ "+-∑∫∞⊤⊥(\"".toList) (x : Xid) :
    firstOk x (some (sy c)) = true := by
  simp only [sy, firstOk, h, decide_true, Bool.or_true]

theorem head_append {a b : Row} (h : firstOk x a.head? = true) : firstOk x (a ++ b).head? = true := by
  cases a with
  | nil => cases h
  | cons n a => exact h

theorem pre_first (hx : x.Usual) (o : PreOp) (rest : Row) :
    firstOk x (o.text.map sy ++ rest).head? = true := by
  have hl : x.start 'l' = true := (hx.letters 'l' (by decide +kernel)).1
  have : firstOk x (some (sy 'l')) = true := by simp [sy, firstOk, hl]
  cases o
  iterate 4 exact firstOk_reserved (by decide +kernel) x
  all_goals exact this

theorem sy_wf (c : Char) : (sy c).wf = true := by simp [sy, Node.wf]

theorem map_sy_wf (s : List Char) : rowWf (s.map sy) = true := by
  rw [rowWf_iff]
  intro n hn
  obtain ⟨c, -, rfl⟩ := List.mem_map.1 hn
  exact sy_wf c

theorem cellsWf_ofFn : ∀ {n : Nat} {rows : Fin n → Row}, (∀ i, rowWf (rows i) = true) →
    cellsWf (List.ofFn rows) = true
  | 0, _, _ => by simp [cellsWf]
  | n + 1, rows, h => by
    rw [List.ofFn_succ, cellsWf, h 0, cellsWf_ofFn fun i => h i.succ]
    rfl

theorem sp_wf (k : Nat) : rowWf (sp k) = true := by
  rw [rowWf_iff]
  intro n hn
  rw [List.eq_of_mem_replicate hn]
  exact sy_wf _

theorem writesOp_wf {sign : List Char} {ss : List (ScriptKind × Row)} {w : Row}
    (h : WritesOp sign ss w) : (∀ s ∈ ss, rowWf s.2 = true) → rowWf w = true := by
  induction h with
  | sign j => intro _; simp [rowWf_append, map_sy_wf, sp_wf]
  | @script ss r k q j _ ih =>
    intro hs
    have h1 := ih fun s hs' => hs s (List.mem_append_left _ hs')
    have h2 := hs (k, q) (by simp)
    cases k <;> simp [rowWf_append, h1, rowWf, sp_wf, Node.wf, shapeOk, cellsWf, h2, ScriptKind.variant]

theorem writesOp_wf' {sign : List Char} {n : Nat} {ks : Fin n → ScriptKind} {rows : Fin n → Row} {w : Row}
    (h : WritesOp sign (List.ofFn fun i => (ks i, rows i)) w) (hr : ∀ i, rowWf (rows i) = true) :
    rowWf w = true := by
  refine writesOp_wf h fun s hs => ?_
  obtain ⟨i, rfl⟩ := List.mem_ofFn.1 hs
  exact hr i

theorem writes_wf {e : Formula} {l r : Nat} {w : Row} (h : e.Writes x l r w) : rowWf w = true := by
  induction h with
  | number _ => exact map_sy_wf _
  | «variable» _ => exact map_sy_wf _
  | constant => simp [rowWf, sy_wf]
  | string _ => simp [rowWf_append, rowWf, sy_wf, map_sy_wf]
  | bin _ _ _ hw _ _ iha ihs ihb => simp [rowWf_append, iha, ihb, writesOp_wf' hw ihs]
  | pre _ hw _ _ _ ihs ih => simp [rowWf_append, ih, writesOp_wf' hw ihs]
  | post _ ih => simp [rowWf_append, rowWf, ih, sy_wf]
  | @script l r a b p q k _ _ iha ihb =>
    cases k <;> simp [rowWf_append, rowWf, iha, ihb, Node.wf, shapeOk, cellsWf, ScriptKind.variant]
  | apply _ _ iha ihb => simp [inBrackets, rowWf_append, rowWf, iha, ihb, sy_wf]
  | call _ ih => simp [inBrackets, rowWf_append, rowWf, ih, sy_wf]
  | unit => simp [inBrackets, rowWf, sy_wf]
  | fraction _ _ iha ihb => simp [rowWf, iha, ihb, Node.wf, shapeOk, cellsWf]
  | root _ _ iha ihb => simp [rowWf, iha, ihb, Node.wf, shapeOk, cellsWf]
  | table h1 h2 h3 _ ih => simp [rowWf, Node.wf, shapeOk, h1, h2, h3, cellsWf_ofFn ih]
  | brackets _ ih => simp [inBrackets, rowWf_append, rowWf, ih, sy_wf]
  | before _ ih => simp [rowWf, ih, sy_wf]
  | after _ ih => simp [rowWf_append, rowWf, ih, sy_wf]

theorem escape_escapes (s : List Char) : Escapes s (escape s) := by
  induction s with
  | nil => exact .nil
  | cons c s ih =>
    rw [escape]
    split
    · exact .escaped ih
    · rename_i h
      exact .plain (fun h' => h (.inl h')) (fun h' => h (.inr h')) ih

theorem writesOp_more {sign : List Char} : ∀ (ts : List (ScriptKind × Row)) {ss w},
    WritesOp sign ss w →
    WritesOp sign (ss ++ ts) (w ++ ts.map fun s => .container s.1.variant [s.2] 1)
  | [], ss, w, h => by simpa using h
  | (k, q) :: ts, ss, w, h => by
    have := writesOp_more ts (WritesOp.script (k := k) (q := q) 0 h)
    simpa [sp] using this

theorem writeOp_writes (sign : List Char) (ss : List (ScriptKind × Row)) :
    WritesOp sign ss (writeOp sign ss) := by
  have := writesOp_more ss (WritesOp.sign (sign := sign) 0)
  simpa [sp, writeOp] using this

theorem fin_bound : ∀ {n : Nat} (fs : Fin n → Nat), ∃ f, ∀ i, fs i ≤ f
  | 0, _ => ⟨0, fun i => i.elim0⟩
  | n + 1, fs => by
    obtain ⟨f, hf⟩ := fin_bound fun i => fs i.succ
    refine ⟨f + fs 0, fun i => ?_⟩
    cases i using Fin.cases with
    | zero => omega
    | succ i => have := hf i; omega

theorem joins_brackets (o : PreOp) (ss : List (ScriptKind × Row)) (w : Row) :
    o.joins (writeOp o.text ss ++ inBrackets w) = false := by
  cases o <;> try rfl
  rw [joins_eq]
  rcases ss with _ | ⟨⟨k, q⟩, ss⟩ <;> rfl

/-- Writing with few brackets is one of the ways to write. -/
theorem write_writes (e : Formula) (he : e.Proper x) (l r : Nat) : e.Writes x l r (e.write l r) := by
  induction e generalizing l r with
  | number s => exact .number he
  | «variable» s => exact .variable he
  | constant k => exact .constant
  | string s => exact .string (escape_escapes s)
  | bin o n ks ss a b ihs iha ihb =>
    have ha := iha he.2.1
    have hb := ihb he.2.2
    have hw := fun i => ihs i (he.1 i) 0 0
    have hlv := o.level_bounds
    rw [Formula.write]
    split
    · rename_i h
      exact .bin h.1 h.2 (ha _ _) (writeOp_writes ..) hw (hb _ _)
    · exact .brackets (.bin (by omega) (by omega) (ha _ _) (writeOp_writes ..) hw (hb _ _))
  | pre o n ks ss a ihs ih =>
    have ha := ih he.2
    have hw := fun i => ihs i (he.1 i) 0 0
    have key : ∀ l r, r ≤ o.level → Formula.Writes x (.pre o n ks ss a) l r
        (writeOp o.text (List.ofFn fun i => (ks i, (ss i).write 0 0)) ++
          if o.joins (writeOp o.text (List.ofFn fun i => (ks i, (ss i).write 0 0)) ++ a.write o.level r)
          then inBrackets (a.write 0 0) else a.write o.level r) := by
      intro l r hr
      split
      · exact .pre hr (writeOp_writes ..) hw (.brackets (ha _ _)) (joins_brackets ..)
      · rename_i h
        exact .pre hr (writeOp_writes ..) hw (ha _ _) (by simpa using h)
    rw [Formula.write]
    dsimp only
    split
    · rename_i h
      exact key l r h
    · exact .brackets (key 0 0 (Nat.zero_le _))
  | post o a ih => rw [Formula.write]; exact .post (ih he _ _)
  | script k a b iha ihb => rw [Formula.write]; exact .script (iha he.1 _ _) (ihb he.2 _ _)
  | apply a b iha ihb => rw [Formula.write]; exact .apply (iha he.1 _ _) (ihb he.2 _ _)
  | call a ih => rw [Formula.write]; exact .call (ih he _ _)
  | unit => exact .unit
  | fraction a b iha ihb => rw [Formula.write]; exact .fraction (iha he.1 _ _) (ihb he.2 _ _)
  | root a b iha ihb => rw [Formula.write]; exact .root (iha he.1 _ _) (ihb he.2 _ _)
  | table w n cells ih =>
    rw [Formula.write]
    exact .table he.1 he.2.1 he.2.2.1 fun i => ih i (he.2.2.2 i) _ _

/-! ## Brackets -/

theorem op_named (S : Std x g m) : IsNamed m ("BuiltIn", "Operator") 0 :=
  S.numbers (("BuiltIn", "Operator"), 0) (by decide +kernel)

/-- What is known of a row `w` that is written out for the formula `e` between levels `l` and `r`: it
can be read with any number of spaces in front and behind. -/
def WrittenAs (x : Xid) (g : Grammar) (m : NameMap) (e : Formula) (l r : Nat) (w : Row) : Prop :=
  ∃ j w', w = sp j ++ w' ∧ firstOk x w'.head? = true ∧
    ∀ (row : Row) (pos i k : Nat) (rest : Row), rowWf row = true →
      row.drop pos = sp i ++ (w' ++ (sp k ++ rest)) → afterOk rest.head? = true →
      ∃ T, Written g m row e l r pos (pos + i + w'.length + k) T

/-- Something without spaces in front. -/
theorem writtenAs_of {e : Formula} {l r : Nat} {w : Row} (hf : firstOk x w.head? = true)
    (h : ∀ (row : Row) (pos i k : Nat) (rest : Row), rowWf row = true →
      row.drop pos = sp i ++ (w ++ (sp k ++ rest)) → afterOk rest.head? = true →
      ∃ T, Written g m row e l r pos (pos + i + w.length + k) T) : WrittenAs x g m e l r w :=
  ⟨0, w, rfl, hf, h⟩

theorem sp_length (k : Nat) : (sp k).length = k := by simp [sp]

/-- The whole row, between nothing but what can follow. -/
theorem WrittenAs.here {e : Formula} {l r' : Nat} {r : Row} (h : WrittenAs x g m e l r' r)
    {row rest : Row} {pos : Nat} (hw : rowWf row = true) (hd : row.drop pos = r ++ rest)
    (ha : afterOk rest.head? = true) : ∃ T, Written g m row e l r' pos (pos + r.length) T := by
  obtain ⟨j, w, rfl, hf, h⟩ := h
  obtain ⟨T, hT⟩ := h row pos j 0 rest hw (by simpa [sp] using hd) ha
  refine ⟨T, ?_⟩
  rwa [List.length_append, sp_length, ← Nat.add_assoc]

theorem WrittenAs.not_closing (hx : x.Usual) {e : Formula} {l r' : Nat} {r : Row}
    (h : WrittenAs x g m e l r' r) (rest : Row) : isSym [')'] (r ++ rest).head? = false := by
  obtain ⟨j, w, rfl, hf, -⟩ := h
  cases j with
  | zero =>
    have := firstOk_not hx (head_append (b := rest) hf) (c := ')') (by simp)
    simpa [sp] using this
  | succ j => rfl

/-- The brackets around something written. -/
theorem brackets_token (S : Std x g m) (hx : x.Usual) {e : Formula} {l r' : Nat} {r : Row}
    (h : WrittenAs x g m e l r' r) {row rest : Row} {pos : Nat}
    (hw : rowWf row = true) (hd : row.drop pos = sy '(' :: r ++ sy ')' :: rest) :
    ∃ f t, tokenParse (pratt g f) g (.brackets 0 ['('] [')']) row pos =
        .ok (some (.children [.leaf 0 pos (pos + 1) .operator [['(']], t,
          .leaf 0 (pos + 1 + r.length) (pos + 1 + r.length + 1) .operator [[')']]],
          pos + 1 + r.length + 1)) ∧ Conveys m t e ∧ t.lo = pos + 1 ∧ t.hi = pos + 1 + r.length := by
  obtain ⟨h0, h1⟩ := drop_cons hd
  have hc : row.drop (pos + 1 + r.length) = sy ')' :: rest := drop_append h1
  obtain ⟨T, hT⟩ := h.here (rest := sy ')' :: rest) hw h1 rfl
  have hR := hT.reads (.sym [')']) [] _
    (.closing rfl (drop_cons hc).1 (closing_none S hx hc))
  rw [List.append_nil] at hR
  exact ⟨_, T.node, brackets_parse S hw hT.nested hd hR, hT.meaning, hT.lo, hT.hi⟩

theorem writtenAs_brackets (S : Std x g m) (hx : x.Usual) {e : Formula} {l r' l' r'' : Nat} {r : Row}
    (h : WrittenAs x g m e l r' r) : WrittenAs x g m e l' r'' (inBrackets r) := by
  refine writtenAs_of (firstOk_reserved (by decide +kernel) x) fun row pos i k rest hw hd ha => ?_
  have hd' : row.drop pos = sp i ++ (sy '(' :: (r ++ sy ')' :: (sp k ++ rest))) := by simpa [inBrackets] using hd
  have h1 := drop_sp hd'
  obtain ⟨f, t, ht, hs, hlo, hhi⟩ := brackets_token S hx h hw h1
  have hq := (drop_cons (drop_append (drop_cons h1).2)).2
  rw [show pos + i + (inBrackets r).length + k = pos + i + 1 + r.length + 1 + k by
    simp [inBrackets]; omega]
  exact Written.of_read (readAs (f := f) (r := ⟨13, .atom, .brackets 0 ['('] [')']⟩) (rs := [])
    S hd' rfl rfl (open_atoms S hx (h.not_closing hx _)) rfl ht (new_three rfl hlo hhi.symm) rfl rfl hq
    ha (.brackets (S.numbers (("Core", "RoundBrackets"), 13) (by decide +kernel)) (leaf_sign S)
      (leaf_sign S) hs))

theorem writtenAs_before {e : Formula} {l r' : Nat} {r : Row} (h : WrittenAs x g m e l r' r) :
    WrittenAs x g m e l r' (sy ' ' :: r) := by
  obtain ⟨j, w, rfl, hf, h⟩ := h
  exact ⟨j + 1, w, rfl, hf, h⟩

theorem writtenAs_after {e : Formula} {l r' : Nat} {r : Row} (h : WrittenAs x g m e l r' r) :
    WrittenAs x g m e l r' (r ++ [sy ' ']) := by
  obtain ⟨j, w, rfl, hf, h⟩ := h
  refine ⟨j, w ++ [sy ' '], by rw [List.append_assoc], head_append hf,
    fun row pos i k rest hw hd ha => ?_⟩
  have := h row pos i (k + 1) rest hw (by rw [hd, sp_succ]; simp) ha
  rwa [List.length_append, List.length_singleton,
    show pos + i + (w.length + 1) + k = pos + i + w.length + (k + 1) by omega]

/-! ## Cells -/

theorem cell_parses (S : Std x g m) {e : Formula} {l r' : Nat} {r : Row} (hw : rowWf r = true)
    (h : WrittenAs x g m e l r' r) : ∃ t, Conveys m t e ∧ ∀ f, restWeight r 0 < f →
      parseWhole (pratt g f) r = .ok t := by
  obtain ⟨T, hT⟩ := h.here (row := r) (pos := 0) (rest := []) hw (by simp) rfl
  rw [Nat.zero_add] at hT
  have hR := hT.reads .eof [] _ .endOfRow
  obtain ⟨T', ht, hn, hp⟩ := pratt_reads S.good hw (Nat.zero_le _) hR
  obtain rfl := nested_unique hn hT.nested (by rw [ht, List.append_nil])
  refine ⟨T'.node, hT.meaning, fun f hf => ?_⟩
  simp only [parseWhole, hp f hf, M.ok_bind, if_true, PResult.node]

theorem cells_one (S : Std x g m) {e : Formula} {l r' : Nat} {r : Row} (hw : rowWf r = true)
    (h : WrittenAs x g m e l r' r) : ∃ t, Conveys m t e ∧ ∃ f, ∀ f', f ≤ f' →
      parseCells (pratt g f') [r] = .ok [t] := by
  obtain ⟨t, hs, hp⟩ := cell_parses S hw h
  refine ⟨t, hs, restWeight r 0 + 1, fun f' hf => ?_⟩
  simp only [parseCells, hp f' hf, M.ok_bind]

theorem cells_two (S : Std x g m) {a b : Formula} {l l' : Nat} {r r' : Row} (hw : rowWf r = true)
    (hw' : rowWf r' = true) (h : WrittenAs x g m a l l' r) (h' : WrittenAs x g m b l l' r') :
    ∃ t t', Conveys m t a ∧ Conveys m t' b ∧ ∃ f, parseCells (pratt g f) [r, r'] = .ok [t, t'] := by
  obtain ⟨t, hs, hp⟩ := cell_parses S hw h
  obtain ⟨t', hs', hp'⟩ := cell_parses S hw' h'
  refine ⟨t, t', hs, hs', restWeight r 0 + restWeight r' 0 + 1, ?_⟩
  simp only [parseCells, hp _ (show restWeight r 0 < restWeight r 0 + restWeight r' 0 + 1 by omega),
    hp' _ (show restWeight r' 0 < restWeight r 0 + restWeight r' 0 + 1 by omega), M.ok_bind]

theorem cells_many (S : Std x g m) : ∀ {n : Nat} {cells : Fin n → Formula} {rows : Fin n → Row},
    (∀ i, rowWf (rows i) = true) → (∀ i, WrittenAs x g m (cells i) 0 0 (rows i)) →
    ∃ ts : Fin n → SNode, (∀ i, Conveys m (ts i) (cells i)) ∧ ∃ f, ∀ f', f ≤ f' →
      parseCells (pratt g f') (List.ofFn rows) = .ok (List.ofFn ts)
  | 0, _, _, _, _ => ⟨fun i => i.elim0, fun i => i.elim0, 0, fun _ _ => by simp [parseCells]⟩
  | n + 1, cells, rows, hw, h => by
    obtain ⟨t, hs, hp⟩ := cell_parses S (hw 0) (h 0)
    obtain ⟨ts, hts, f, hf⟩ := cells_many S (cells := fun i => cells i.succ)
      (rows := fun i => rows i.succ) (fun i => hw i.succ) (fun i => h i.succ)
    refine ⟨fun i => Fin.cases (motive := fun _ => SNode) t ts i, fun i => ?_, f + restWeight (rows 0) 0 + 1, fun f' hf' => ?_⟩
    · cases i using Fin.cases with
      | zero => exact hs
      | succ i => exact hts i
    · rw [List.ofFn_succ, List.ofFn_succ, parseCells, hp f' (by omega), hf f' (by omega)]
      rfl

/-! ## Names -/

theorem BinOp.named (S : Std x g m) (o : BinOp) : IsNamed m o.path o.number :=
  S.numbers (o.path, o.number) (by cases o <;> decide +kernel)

theorem PreOp.named (S : Std x g m) (o : PreOp) : IsNamed m o.path o.rule.name :=
  S.numbers (o.path, o.rule.name) (by cases o <;> decide +kernel)

theorem PostOp.named (S : Std x g m) (o : PostOp) : IsNamed m o.path o.rule.name :=
  S.numbers (o.path, o.rule.name) (by cases o <;> decide +kernel)

/-! ## All formulas -/

theorem joins_append {o : PreOp} {w rest : Row} (hj : o.joins w = false)
    (hs : stopOk rest.head? = true) : o.joins (w ++ rest) = false := by
  cases o with
  | lim =>
    rw [joins_eq, Bool.or_eq_false_iff] at hj ⊢
    have hn : ∀ c ∈ "limsupnf".toList, isSym [c] rest.head? = false := fun c hc =>
      stopOk_not hs (by revert c; decide +kernel) (by revert c; decide +kernel)
    constructor
    · cases h : beginsWith [['l'], ['i'], ['m'], ['s'], ['u'], ['p']] (w ++ rest) with
      | false => rfl
      | true =>
        rw [beginsWith_append h (by
          simp only [List.mem_cons, List.not_mem_nil, or_false, forall_eq_or_imp, forall_eq]
          refine ⟨hn _ ?_, hn _ ?_, hn _ ?_, hn _ ?_, hn _ ?_, hn _ ?_⟩ <;> decide +kernel)] at hj
        cases hj.1
    · cases h : beginsWith [['l'], ['i'], ['m'], ['i'], ['n'], ['f']] (w ++ rest) with
      | false => rfl
      | true =>
        rw [beginsWith_append h (by
          simp only [List.mem_cons, List.not_mem_nil, or_false, forall_eq_or_imp, forall_eq]
          refine ⟨hn _ ?_, hn _ ?_, hn _ ?_, hn _ ?_, hn _ ?_, hn _ ?_⟩ <;> decide +kernel)] at hj
        cases hj.2
  | _ => rfl

theorem writesOp_spaces {sign : List Char} {ss : List (ScriptKind × Row)} {w : Row}
    (h : WritesOp sign ss w) (k : Nat) : WritesOp sign ss (w ++ sp k) := by
  cases h with
  | sign j => rw [List.append_assoc, ← sp_add]; exact .sign _
  | script j h => rw [List.append_assoc, List.cons_append, ← sp_add]; exact .script _ h

/-- The scripts of an operator. -/
theorem scripts_parse (S : Std x g m) {n : Nat} {ks : Fin n → ScriptKind} {ss : Fin n → Formula}
    {rows : Fin n → Row} (hw : ∀ i, rowWf (rows i) = true)
    (h : ∀ i, WrittenAs x g m (ss i) 0 0 (rows i)) :
    ∃ (ts : Fin n → SNode) (zs : List (ScriptKind × Row × SNode)) (f : Nat),
      (∀ i, Conveys m (ts i) (ss i)) ∧
      zs.map (fun z => (z.1, z.2.1)) = List.ofFn (fun i => (ks i, rows i)) ∧
      zs.map (fun z => (z.1, z.2.2)) = List.ofFn (fun i => (ks i, ts i)) ∧
      ∀ z ∈ zs, parseCells (pratt g f) [z.2.1] = .ok [z.2.2] := by
  have h1 := fun i => cells_one S (hw i) (h i)
  choose ts hts fs hfs using h1
  obtain ⟨f, hf⟩ := fin_bound fs
  refine ⟨ts, List.ofFn fun i => (ks i, rows i, ts i), f, hts, by
    rw [List.map_ofFn]; rfl, by rw [List.map_ofFn]; rfl, fun z hz => ?_⟩
  obtain ⟨i, rfl⟩ := List.mem_ofFn.1 hz
  exact hfs i _ (hf i)

theorem written (S : Std x g m) (hx : x.Usual) {e : Formula} {l r : Nat} {w : Row}
    (h : e.Writes x l r w) (h5 : l ≤ 5) : WrittenAs x g m e l r w := by
  induction h with
  | @number l r s he =>
    refine writtenAs_of ?_ fun row pos i k rest hw hd ha => ?_
    · obtain ⟨d, ds, rfl, hd⟩ := isNumber_cons he
      simp [firstOk, sy, hd]
    · rw [List.length_map]
      exact Written.of_read (number_read S hx he hd ha)
  | @«variable» l r s he =>
    refine writtenAs_of ?_ fun row pos i k rest hw hd ha => ?_
    · obtain ⟨c, cs, rfl, hc, -⟩ := he
      simp [firstOk, sy, hc]
    · rw [List.length_map]
      exact Written.of_read (variable_read S hx he hd ha)
  | @constant l r c =>
    refine writtenAs_of (by cases c <;> exact firstOk_reserved (by decide +kernel) x)
      fun row pos i k rest hw hd ha => Written.of_read (constant_read S hx c hd ha)
  | @string l r s t he =>
    refine writtenAs_of (firstOk_reserved (by decide +kernel) x) fun row pos i k rest hw hd ha => ?_
    rw [show (sy '"' :: t.map sy ++ [sy '"']).length = t.length + 2 by simp]
    exact Written.of_read (string_read S hx he hd ha)
  | @bin l r a b wa wo wb o n ks ss rows hl hr ha' hwo hs' hb' iha ihs ihb =>
    have hb := o.level_bounds
    obtain ⟨ja, ra, rfl, hfa, iha⟩ := iha h5
    obtain ⟨jb, rb, rfl, hfb, ihb⟩ := ihb (by omega)
    obtain ⟨ts, zs, f, hts, hz1, hz2, hz3⟩ := scripts_parse (ks := ks) S (fun i => writes_wf (hs' i))
      fun i => ihs i (by omega)
    have hwo' := writesOp_spaces hwo jb
    rw [← hz1] at hwo'
    refine ⟨ja, ra ++ (wo ++ (sp jb ++ rb)), by simp, head_append hfa,
      fun row pos i k rest hw hd ha => ?_⟩
    have hd1 : row.drop pos = sp i ++ (ra ++ (sp 0 ++ ((wo ++ sp jb) ++ (rb ++ (sp k ++ rest))))) := by
      simpa [sp] using hd
    have hd2 := drop_append (drop_sp hd1)
    have hd3 := drop_append (drop_sp hd2)
    obtain ⟨T, hT⟩ := iha row pos i 0 _ hw hd1 (by
      obtain ⟨w', hw'⟩ := writesOp_sign hwo
      rw [hw']
      cases o <;> rfl)
    obtain ⟨U, hU⟩ := ihb row _ 0 k rest hw hd3 ha
    obtain ⟨t, hc, hs⟩ := infix_chosen S hx o hwo' hz3 hd2 (head_append hfb)
    rw [hz2] at hs
    have := hT.inf hc hU hl hr (.bin (o.named S) hs hts hT.meaning hU.meaning)
    rw [show pos + i + (ra ++ (wo ++ (sp jb ++ rb))).length + k =
      pos + i + ra.length + 0 + (wo ++ sp jb).length + 0 + rb.length + k by
        simp only [List.length_append]; omega]
    exact ⟨_, this⟩
  | @pre l r a wo wa o n ks ss rows hr hwo hs' ha' hj ihs ih =>
    have hb := o.level_bounds
    obtain ⟨j, ra, rfl, hf, ih⟩ := ih hb.2
    obtain ⟨ts, zs, f, hts, hz1, hz2, hz3⟩ := scripts_parse (ks := ks) S (fun i => writes_wf (hs' i))
      fun i => ihs i (by omega)
    have hwo' := writesOp_spaces hwo j
    rw [← hz1] at hwo'
    refine writtenAs_of ?_ fun row pos i k rest hw hd ha => ?_
    · obtain ⟨w', hw'⟩ := writesOp_sign hwo
      rw [hw', List.append_assoc]
      exact pre_first hx o _
    have hd1 : row.drop pos = sp i ++ ((wo ++ sp j) ++ (ra ++ (sp k ++ rest))) := by
      simpa using hd
    obtain ⟨T, hT⟩ := ih row _ 0 k rest hw (drop_mid hd1) ha
    obtain ⟨t, hc, hs, hlo⟩ := prefix_chosen S hx o hwo' hz3 hd1 (by
      have := joins_append hj (stopOk_head (k := k) ha)
      simpa using this) (head_append hf)
    rw [hz2] at hs
    rw [show pos + i + (wo ++ (sp j ++ ra)).length + k =
      pos + i + (wo ++ sp j).length + 0 + ra.length + k by
        simp only [List.length_append]; omega]
    exact ⟨_, hT.pre hc hlo hr (.pre (o.named S) hs hts hT.meaning)⟩
  | @post l r a wa o ha' ih =>
    obtain ⟨j, ra, rfl, hf, ih⟩ := ih h5
    refine ⟨j, ra ++ [sy o.char], by simp, head_append hf, fun row pos i k rest hw hd ha => ?_⟩
    have hd1 : row.drop pos = sp i ++ (ra ++ (sp 0 ++ (sy o.char :: (sp k ++ rest)))) := by
      simpa [sp] using hd
    have hd2 := drop_append (drop_sp hd1)
    obtain ⟨T, hT⟩ := ih row pos i 0 _ hw hd1 (by cases o <;> rfl)
    obtain ⟨t, hn, hc, hs, hhi⟩ := postfix_chosen S o hd2 ha
    rw [show pos + i + (ra ++ [sy o.char]).length + k = pos + i + ra.length + 1 + k by
      simp only [List.length_append, List.length_singleton]; omega]
    exact ⟨_, hT.post hn hc hhi (by cases o <;> decide) h5 (.post (o.named S) hs hT.meaning)⟩
  | @script l r a b wa wb v ha' hb' iha ihb =>
    obtain ⟨j, ra, rfl, hf, ih⟩ := iha h5
    refine ⟨j, ra ++ [.container v.variant [wb] 1], by simp, head_append hf,
      fun row pos i k rest hw hd ha => ?_⟩
    have hd1 : row.drop pos =
        sp i ++ (ra ++ (sp 0 ++ (.container v.variant [wb] 1 :: (sp k ++ rest)))) := by
      simpa [sp] using hd
    have hd2 := drop_append (drop_sp hd1)
    obtain ⟨T, hT⟩ := ih row pos i 0 _ hw hd1 (by cases v <;> rfl)
    obtain ⟨t, ht, f, hf⟩ := cells_one S (writes_wf hb') (ihb (by omega))
    obtain ⟨s, hn, hc, hs, hhi⟩ := script_chosen S v hd2 (hf f (Nat.le_refl _)) ha
    rw [show pos + i + (ra ++ [Node.container v.variant [wb] 1]).length + k =
      pos + i + ra.length + 1 + k by
        simp only [List.length_append, List.length_singleton]; omega]
    exact ⟨_, hT.post hn hc hhi (by cases v <;> decide) h5 (.script (v.named S) hs hT.meaning ht)⟩
  | @apply l r a b wa wb ha' hb' iha ihb =>
    have hwb := ihb (by omega)
    obtain ⟨j, ra, rfl, hf, ih⟩ := iha h5
    refine ⟨j, ra ++ inBrackets wb, by simp, head_append hf, fun row pos i k rest hw hd ha => ?_⟩
    have hd1 : row.drop pos =
        sp i ++ (ra ++ (sp 0 ++ (sy '(' :: (wb ++ sy ')' :: (sp k ++ rest))))) := by
      simpa [sp, inBrackets] using hd
    have hd2 : row.drop (pos + i + ra.length) = sp 0 ++ sy '(' :: (wb ++ sy ')' :: (sp k ++ rest)) :=
      drop_append (drop_sp hd1)
    obtain ⟨T, hT⟩ := ih row pos i 0 _ hw hd1 rfl
    obtain ⟨f, t, ht, hs, hlo, hhi⟩ := brackets_token S hx hwb hw hd2
    have hq := (drop_cons (drop_append (drop_cons hd2).2)).2
    generalize hp : pos + i + ra.length = p at *
    have hname : tokenName g ⟨33, .postfix 800, .brackets 0 ['('] [')']⟩ = 0 := by
      simp only [tokenName, S.builtIn]
    obtain ⟨s, h3, h4, -, h5'⟩ := ruleParse_plain (r := ⟨33, .postfix 800, .brackets 0 ['('] [')']⟩) S hd2
      rfl ht (by rw [hname]; exact new_three rfl hlo hhi.symm) rfl rfl hq (after_not_script ha) nofun
    rw [show pos + i + (ra ++ inBrackets wb).length + k = p + 1 + wb.length + 1 + k by
      simp only [inBrackets, List.length_append, List.length_cons, List.length_nil]; omega]
    exact ⟨_, hT.post (noneOf_here (role := .infix) (rs := shippedInfixes) S.infixes hd2 rfl rfl)
      (chosen_first (role := .postfix) (rs := shippedPostfixes) (f := f) S.postfixes hd2 rfl
        (open_postfixes (hwb.not_closing hx _)) h3) h5' (by decide) h5 (.apply
      (S.numbers (("Function", "FunctionApplication"), 33) (by decide +kernel)) (op_named S) (leaf_sign S)
      (leaf_sign S) h4 hT.meaning hs)⟩
  | @call l r a wa ha' ih =>
    obtain ⟨j, ra, rfl, hf, ih⟩ := ih h5
    refine ⟨j, ra ++ inBrackets [], by simp, head_append hf, fun row pos i k rest hw hd ha => ?_⟩
    have hd1 : row.drop pos = sp i ++ (ra ++ (sp 0 ++ (sy '(' :: sy ')' :: (sp k ++ rest)))) := by
      simpa [sp, inBrackets] using hd
    have hd2 := drop_append (drop_sp hd1)
    obtain ⟨T, hT⟩ := ih row pos i 0 _ hw hd1 rfl
    obtain ⟨s, l', r', hn, hc, h3, h4, h5', hhi⟩ := call_chosen S hd2 ha
    rw [show pos + i + (ra ++ inBrackets []).length + k = pos + i + ra.length + 2 + k by
      simp only [inBrackets, List.length_append, List.length_cons, List.length_nil]; omega]
    exact ⟨_, hT.post hn hc hhi (by decide) h5 (.call
      (S.numbers (("Function", "FunctionApplication"), 33) (by decide +kernel)) (op_named S) h4 h5' h3
      hT.meaning)⟩
  | unit =>
    exact writtenAs_of (firstOk_reserved (by decide +kernel) x) fun row pos i k rest hw hd ha =>
      Written.of_read (unit_read S hx hd ha)
  | @fraction l r a b wa wb ha' hb' iha ihb =>
    refine writtenAs_of rfl fun row pos i k rest hw hd ha => ?_
    obtain ⟨t, t', hs, hs', f, hf⟩ := cells_two S (writes_wf ha') (writes_wf hb')
      (iha (by omega)) (ihb (by omega))
    exact Written.of_read (container_read S (.inl rfl) hd hf (by decide) (by simp) ha fun _ _ =>
      .fraction (S.numbers (("BuiltIn", "Fraction"), 9) (by decide +kernel)) hs hs')
  | @root l r a b wa wb ha' hb' iha ihb =>
    refine writtenAs_of rfl fun row pos i k rest hw hd ha => ?_
    obtain ⟨t, t', hs, hs', f, hf⟩ := cells_two S (writes_wf ha') (writes_wf hb')
      (iha (by omega)) (ihb (by omega))
    exact Written.of_read (container_read S (.inr (.inl rfl)) hd hf (by decide) (by simp) ha fun _ _ =>
      .root (S.numbers (("BuiltIn", "Root"), 10) (by decide +kernel)) hs hs')
  | @table l r w n cells rows h1' h2' h3' hc ih =>
    refine writtenAs_of rfl fun row pos i k rest hw hd ha => ?_
    obtain ⟨ts, hs, f, hf⟩ := cells_many S (fun i => writes_wf (hc i)) (fun i => ih i (by omega))
    exact Written.of_read (container_read S (.inr (.inr rfl)) hd (hf f (Nat.le_refl _)) (by omega)
      (by rw [List.length_ofFn]; exact h3') ha fun _ _ =>
      .table (S.numbers (("BuiltIn", "Table"), 11) (by decide +kernel)) rfl hs)
  | @brackets l r e w h' ih => exact writtenAs_brackets S hx (ih (by omega))
  | before _ ih => exact writtenAs_before (ih h5)
  | after _ ih => exact writtenAs_after (ih h5)

end Aftermath

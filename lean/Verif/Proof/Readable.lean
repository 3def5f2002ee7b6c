import Verif.Spec.Readable
import Verif.Proof.Closed
import Verif.Proof.Spaces

/-! # Lemmas for C112 -/

namespace Aftermath

variable {x : Xid}

/-- The node is no letter of the sign of an operator. -/
def NoLetter (n : Node) : Prop := n ∉ PreOp.limSup.text.map sy ∧ n ∉ PreOp.limInf.text.map sy

/-- The row can be put behind what an operator of level `k` leaves to it. -/
structure Follows (x : Xid) (k : Nat) (t : Row) : Prop where
  pos : 0 < k
  head : ∃ n t', t = n :: t' ∧ NoLetter n
  writes : ∀ (a : Formula) l p, l < k → a.Writes x l k p → ∃ e : Formula, e.Writes x l 0 (p ++ t)

theorem Follows.space {k : Nat} {t : Row} (h : Follows x k t) : Follows x k (sy ' ' :: t) := by
  refine ⟨h.pos, ⟨_, _, rfl, by decide +kernel, by decide +kernel⟩, fun a l p hl ha => ?_⟩
  have := h.writes a l _ hl ha.after
  rwa [List.append_assoc] at this

theorem joins_left {o : PreOp} {p q : Row} (h : o.joins (p ++ q) = false) : o.joins p = false := by
  rw [joins_false] at h ⊢
  intro ho
  obtain ⟨h1, h2⟩ := h ho
  exact ⟨fun hc => h1 (hc.trans (List.prefix_append _ _)), fun hc => h2 (hc.trans (List.prefix_append _ _))⟩

/-- What is put behind a formula belongs to all of it, or to a part of it at its end. -/
theorem writes_follow {k : Nat} {e : Formula} {l r : Nat} {row : Row} (he : e.Writes x l r row) :
    ∀ {t : Row}, Follows x k t → e.Writes x l k row ∨ ∃ e' : Formula, e'.Writes x l 0 (row ++ t) := by
  induction he with
  | number hs => exact fun _ => .inl (.number hs)
  | «variable» hs => exact fun _ => .inl (.variable hs)
  | constant => exact fun _ => .inl .constant
  | string hs => exact fun _ => .inl (.string hs)
  | @bin l r a b p w q o n ks ss rows hl hr ha hw hs hb iha ihs ihb =>
    intro t ht
    have key : (∃ e' : Formula, e'.Writes x o.level 0 (q ++ t)) →
        ∃ e' : Formula, e'.Writes x l 0 (p ++ (w ++ q) ++ t) := by
      rintro ⟨b', hb'⟩
      refine ⟨.bin o n ks ss a b', ?_⟩
      rw [List.append_assoc, List.append_assoc]
      exact .bin hl (Nat.zero_le _) ha hw hs hb'
    rcases ihb ht with hb' | hb'
    · by_cases hk : k ≤ o.level
      · exact .inl (.bin hl hk ha hw hs hb')
      · exact .inr (key (ht.writes b _ _ (by omega) hb'))
    · exact .inr (key hb')
  | @pre l r a w q o n ks ss rows hr hw hs ha hj ihs iha =>
    intro t ht
    have hj' : o.joins (w ++ (q ++ t)) = false := by
      obtain ⟨n, t', rfl, hn⟩ := ht.head
      rw [← List.append_assoc]
      exact joins_skip (q := []) hn (by rwa [List.append_nil])
    have key : (∃ e' : Formula, e'.Writes x o.level 0 (q ++ t)) →
        ∃ e' : Formula, e'.Writes x l 0 (w ++ q ++ t) := by
      rintro ⟨a', ha'⟩
      refine ⟨.pre o n ks ss a', ?_⟩
      rw [List.append_assoc]
      exact .pre (Nat.zero_le _) hw hs ha' hj'
    rcases iha ht with ha' | ha'
    · by_cases hk : k ≤ o.level
      · exact .inl (.pre hk hw hs ha' hj)
      · exact .inr (key (ht.writes a _ _ (by omega) ha'))
    · exact .inr (key ha')
  | post ha => exact fun _ => .inl (.post ha)
  | script ha hb => exact fun _ => .inl (.script ha hb)
  | apply ha hb => exact fun _ => .inl (.apply ha hb)
  | call ha => exact fun _ => .inl (.call ha)
  | unit => exact fun _ => .inl .unit
  | fraction ha hb => exact fun _ => .inl (.fraction ha hb)
  | root ha hb => exact fun _ => .inl (.root ha hb)
  | table h1 h2 h3 h4 => exact fun _ => .inl (.table h1 h2 h3 h4)
  | brackets h => exact fun _ => .inl (.brackets h)
  | before _ ih =>
    intro t ht
    rcases ih ht with h | ⟨e', h⟩
    · exact .inl (.before h)
    · exact .inr ⟨e', .before h⟩
  | @after l r e p h ih =>
    intro t ht
    rcases ih ht.space with h | ⟨e', h⟩
    · exact .inl (.after h)
    · refine .inr ⟨e', ?_⟩
      rwa [List.append_assoc]

theorem Follows.all {k : Nat} {t row : Row} (ht : Follows x k t) {e : Formula}
    (he : e.Writes x 0 0 row) : ∃ e' : Formula, e'.Writes x 0 0 (row ++ t) := by
  rcases writes_follow he ht with h | h
  · exact ht.writes e 0 row ht.pos h
  · exact h

theorem follows_post (o : PostOp) : Follows x 6 [sy o.char] :=
  ⟨by omega, ⟨_, _, rfl, by cases o <;> exact ⟨by decide +kernel, by decide +kernel⟩⟩,
    fun a _ _ _ ha => ⟨.post o a, .post ha⟩⟩

theorem follows_script (k : ScriptKind) {b : Formula} {q : Row} (hb : b.Writes x 0 0 q) :
    Follows x 6 [.container k.variant [q] 1] :=
  ⟨by omega, ⟨_, _, rfl, by simp [NoLetter, sy]⟩, fun a _ _ _ ha => ⟨.script k a b, .script ha hb⟩⟩

theorem follows_apply {b : Formula} {q : Row} (hb : b.Writes x 0 0 q) : Follows x 6 (inBrackets q) :=
  ⟨by omega, ⟨_, _, rfl, by decide +kernel, by decide +kernel⟩, fun a _ _ _ ha => ⟨.apply a b, .apply ha hb⟩⟩

theorem follows_call : Follows x 6 (inBrackets []) :=
  ⟨by omega, ⟨_, _, rfl, by decide +kernel, by decide +kernel⟩, fun a _ _ _ ha => ⟨.call a, .call ha⟩⟩

theorem writesOp_head {c : Char} {s : List Char} {ss : List (ScriptKind × Row)} {w : Row}
    (h : WritesOp (c :: s) ss w) : ∃ w', w = sy c :: w' := by
  induction h with
  | sign j => exact ⟨_, rfl⟩
  | script j _ ih =>
    obtain ⟨w', rfl⟩ := ih
    exact ⟨_, rfl⟩

theorem follows_bin {o : BinOp} {n : Nat} {ks : Fin n → ScriptKind} {ss : Fin n → Formula}
    {rows : Fin n → Row} {w q : Row} {b : Formula}
    (hw : WritesOp [o.char] (List.ofFn fun i => (ks i, rows i)) w)
    (hs : ∀ i, (ss i).Writes x 0 0 (rows i)) (hb : b.Writes x o.level 0 q) :
    Follows x o.level (w ++ q) := by
  refine ⟨by cases o <;> decide, ?_, fun a l p hl ha =>
    ⟨.bin o n ks ss a b, .bin hl (Nat.zero_le _) ha hw hs hb⟩⟩
  obtain ⟨w', rfl⟩ := writesOp_head hw
  exact ⟨_, _, rfl, by cases o <;> exact ⟨by decide +kernel, by decide +kernel⟩⟩

/-- Behind `u`, every operand that `s` begins with can be read. -/
def Opens (x : Xid) (u s : Row) : Prop :=
  ∀ q (e : Formula), q <+: s → (∀ l, e.Writes x l 0 q) → ∃ e' : Formula, e'.Writes x 0 0 (u ++ q)

theorem opens_bin {o : BinOp} {n : Nat} {ks : Fin n → ScriptKind} {ss : Fin n → Formula}
    {rows : Fin n → Row} {p w s : Row} {a : Formula} (ha : a.Writes x 0 0 p)
    (hw : WritesOp [o.char] (List.ofFn fun i => (ks i, rows i)) w)
    (hs : ∀ i, (ss i).Writes x 0 0 (rows i)) : Opens x (p ++ w) s := by
  intro q e _ he
  rw [List.append_assoc]
  exact (follows_bin hw hs (he _)).all ha

theorem Opens.pre {o : PreOp} {n : Nat} {ks : Fin n → ScriptKind} {ss : Fin n → Formula}
    {rows : Fin n → Row} {u w s : Row} (h : Opens x u (w ++ s))
    (hw : WritesOp o.text (List.ofFn fun i => (ks i, rows i)) w)
    (hs : ∀ i, (ss i).Writes x 0 0 (rows i)) (hj : o.joins (w ++ s) = false) : Opens x (u ++ w) s := by
  intro q e hq he
  rw [List.append_assoc]
  have hp : w ++ q <+: w ++ s := (List.prefix_append_right_inj w).2 hq
  refine h (w ++ q) (.pre o n ks ss e) hp fun l => .pre (Nat.zero_le _) hw hs (he _) ?_
  obtain ⟨r, hr⟩ := hp
  rw [← hr] at hj
  exact joins_left hj

theorem Opens.left {u s s' : Row} (h : Opens x u s) (hs : s' <+: s) : Opens x u s' :=
  fun q e hq => h q e (hq.trans hs)

/-- Every formula can be read behind it. -/
theorem Opens.all {e : Formula} {l r : Nat} {s : Row} (he : e.Writes x l r s) :
    ∀ {u : Row}, Opens x u s → ∃ e' : Formula, e'.Writes x 0 0 (u ++ s) := by
  induction he with
  | number hs => exact fun h => h _ _ List.prefix_rfl fun _ => .number hs
  | «variable» hs => exact fun h => h _ _ List.prefix_rfl fun _ => .variable hs
  | constant => exact fun h => h _ _ List.prefix_rfl fun _ => .constant
  | string hs => exact fun h => h _ _ List.prefix_rfl fun _ => .string hs
  | bin _ _ _ hw hs _ iha _ ihb =>
    intro u h
    obtain ⟨a', ha'⟩ := iha (h.left (List.prefix_append _ _))
    obtain ⟨e', he'⟩ := ihb (opens_bin ha' hw hs)
    exact ⟨e', by simpa only [List.append_assoc] using he'⟩
  | pre _ hw hs _ hj _ iha =>
    intro u h
    obtain ⟨e', he'⟩ := iha (h.pre hw hs hj)
    exact ⟨e', by simpa only [List.append_assoc] using he'⟩
  | @post l r a p o _ ih =>
    intro u h
    obtain ⟨a', ha'⟩ := ih (h.left (List.prefix_append _ _))
    rw [← List.append_assoc]
    exact (follows_post o).all ha'
  | script _ hb iha _ =>
    intro u h
    obtain ⟨a', ha'⟩ := iha (h.left (List.prefix_append _ _))
    rw [← List.append_assoc]
    exact (follows_script _ hb).all ha'
  | apply _ hb iha _ =>
    intro u h
    obtain ⟨a', ha'⟩ := iha (h.left (List.prefix_append _ _))
    rw [← List.append_assoc]
    exact (follows_apply hb).all ha'
  | call _ iha =>
    intro u h
    obtain ⟨a', ha'⟩ := iha (h.left (List.prefix_append _ _))
    rw [← List.append_assoc]
    exact follows_call.all ha'
  | unit => exact fun h => h _ _ List.prefix_rfl fun _ => .unit
  | fraction ha hb => exact fun h => h _ _ List.prefix_rfl fun _ => .fraction ha hb
  | root ha hb => exact fun h => h _ _ List.prefix_rfl fun _ => .root ha hb
  | table h1 h2 h3 h4 => exact fun h => h _ _ List.prefix_rfl fun _ => .table h1 h2 h3 h4
  | brackets hp => exact fun h => h _ _ List.prefix_rfl fun _ => .brackets hp
  | @before l r e p _ ih =>
    intro u h
    have : Opens x (u ++ [sy ' ']) p := by
      intro q e hq he
      rw [List.append_assoc]
      exact h (sy ' ' :: q) e (List.cons_prefix_cons.2 ⟨rfl, hq⟩) fun l => .before (he l)
    obtain ⟨e', he'⟩ := ih this
    exact ⟨e', by simpa only [List.append_assoc, List.singleton_append] using he'⟩
  | after _ ih =>
    intro u h
    obtain ⟨e', he'⟩ := ih (h.left (List.prefix_append _ _))
    rw [← List.append_assoc]
    exact ⟨e', .after he'⟩

/-- Precedence does not decide what can be read. -/
theorem writes_of_readable {row : Row} (h : Readable x row) : ∃ e : Formula, e.Writes x 0 0 row := by
  induction h with
  | number hs => exact ⟨_, .number hs⟩
  | «variable» hs => exact ⟨_, .variable hs⟩
  | constant => exact ⟨_, .constant⟩
  | string hs => exact ⟨_, .string hs⟩
  | bin _ hw _ _ ihp ihs ihq =>
    obtain ⟨a, ha⟩ := ihp
    obtain ⟨b, hb⟩ := ihq
    have := Opens.all hb (opens_bin ha hw fun i => (ihs i).choose_spec)
    rwa [List.append_assoc] at this
  | pre hw _ _ hj ihs ihq =>
    obtain ⟨b, hb⟩ := ihq
    refine Opens.all hb (Opens.pre (u := []) ?_ hw (fun i => (ihs i).choose_spec) hj)
    exact fun q e _ he => ⟨e, he 0⟩
  | @post p o _ ih =>
    obtain ⟨a, ha⟩ := ih
    exact (follows_post o).all ha
  | script _ _ ihp ihq =>
    obtain ⟨a, ha⟩ := ihp
    obtain ⟨b, hb⟩ := ihq
    exact (follows_script _ hb).all ha
  | apply _ _ ihp ihq =>
    obtain ⟨a, ha⟩ := ihp
    obtain ⟨b, hb⟩ := ihq
    exact (follows_apply hb).all ha
  | call _ ih =>
    obtain ⟨a, ha⟩ := ih
    exact follows_call.all ha
  | unit => exact ⟨_, .unit⟩
  | fraction _ _ ihp ihq => exact ⟨_, .fraction ihp.choose_spec ihq.choose_spec⟩
  | root _ _ ihp ihq => exact ⟨_, .root ihp.choose_spec ihq.choose_spec⟩
  | table h1 h2 h3 _ ih => exact ⟨_, .table h1 h2 h3 fun i => (ih i).choose_spec⟩
  | brackets _ ih => exact ⟨_, .brackets ih.choose_spec⟩
  | before _ ih => exact ⟨_, .before ih.choose_spec⟩
  | after _ ih => exact ⟨_, .after ih.choose_spec⟩

theorem readable_of_writes {e : Formula} {l r : Nat} {row : Row} (h : e.Writes x l r row) :
    Readable x row := by
  induction h with
  | number hs => exact .number hs
  | «variable» hs => exact .variable hs
  | constant => exact .constant
  | string hs => exact .string hs
  | bin _ _ _ hw _ _ iha ihs ihb => exact .bin iha hw ihs ihb
  | pre _ hw _ _ hj ihs iha => exact .pre hw ihs iha hj
  | post _ ih => exact .post ih
  | script _ _ iha ihb => exact .script iha ihb
  | apply _ _ iha ihb => exact .apply iha ihb
  | call _ ih => exact .call ih
  | unit => exact .unit
  | fraction _ _ iha ihb => exact .fraction iha ihb
  | root _ _ iha ihb => exact .root iha ihb
  | table h1 h2 h3 _ ih => exact .table h1 h2 h3 ih
  | brackets _ ih => exact .brackets ih
  | before _ ih => exact .before ih
  | after _ ih => exact .after ih

theorem readable_iff {row : Row} : Readable x row ↔ ∃ e : Formula, e.Writes x 0 0 row :=
  ⟨writes_of_readable, fun ⟨_, h⟩ => readable_of_writes h⟩

end Aftermath

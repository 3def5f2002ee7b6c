import Verif.Spec.Loosest
import Verif.Proof.ReadableSplit

/-! # Lemmas for C113 -/

namespace Aftermath

variable {x : Xid}

theorem Tighter.left {k : Nat} {p t : Row} (h : Tighter x k (p ++ t)) : Tighter x k p := by
  rintro o p' q rfl hb hr
  exact h o p' (q ++ t) (by simp) hb hr

theorem AsTight.left {k : Nat} {p t : Row} (h : AsTight x k (p ++ t)) : AsTight x k p := by
  refine ⟨?_, ?_⟩
  · rintro o p' q rfl hb hr
    exact h.bin o p' (q ++ t) (by simp) hb hr
  · rintro o p' q rfl hb
    exact h.pre o p' (q ++ t) (by simp) hb

theorem AsTight.right {k : Nat} {u s : Row} (h : AsTight x k (u ++ s)) (hu : Balanced 0 u)
    (hr : ∀ p q, s = p ++ q → Readable x p → Readable x (u ++ p)) : AsTight x k s := by
  refine ⟨?_, ?_⟩
  · rintro o p q rfl hb hp
    exact h.bin o (u ++ p) q (by simp) (hu.append hb) (hr p _ rfl hp)
  · rintro o p q rfl hb
    exact h.pre o (u ++ p) q (by simp) (hu.append hb)

/-- A formula of tighter operators can stand on the right of an operator. -/
theorem writes_tighter (hx : x.Usual) {k : Nat} {e : Formula} {l r : Nat} {row : Row}
    (he : e.Writes x l r row) : Tighter x k row → e.Writes x k r row := by
  induction he with
  | number hs => exact fun _ => .number hs
  | «variable» hs => exact fun _ => .variable hs
  | constant => exact fun _ => .constant
  | string hs => exact fun _ => .string hs
  | @bin l r a b p w q o n ks ss rows hl hr ha hw hs hb iha ihs ihb =>
    intro ht
    obtain ⟨w', rfl⟩ := writesOp_head hw
    have hp := readable_of_writes ha
    exact .bin (ht o p (w' ++ q) rfl (readable_balanced hx hp) hp) hr (iha ht.left) hw hs hb
  | pre hr hw hs ha hj => exact fun _ => .pre hr hw hs ha hj
  | post _ ih => exact fun ht => .post (ih ht.left)
  | script _ hb ih => exact fun ht => .script (ih ht.left) hb
  | apply _ hb ih => exact fun ht => .apply (ih ht.left) hb
  | call _ ih => exact fun ht => .call (ih ht.left)
  | unit => exact fun _ => .unit
  | fraction ha hb => exact fun _ => .fraction ha hb
  | root ha hb => exact fun _ => .root ha hb
  | table h1 h2 h3 h4 => exact fun _ => .table h1 h2 h3 h4
  | brackets h => exact fun _ => .brackets h
  | @before l r e p _ ih =>
    refine fun ht => .before (ih ?_)
    rintro o p' q rfl hb hr
    exact ht o (sy ' ' :: p') q rfl (.other (by decide) (by decide) (by decide) hb) (.before hr)
  | after _ ih => exact fun ht => .after (ih ht.left)

theorem preOp_balanced {o : PreOp} {ss : List (ScriptKind × Row)} {w : Row} (hw : WritesOp o.text ss w) :
    Balanced 0 w := by
  obtain ⟨w', rfl, hw1, -⟩ := writesOp_mem hw
  have : Balanced 0 (o.text.map sy) := text_balanced (by cases o <;> decide) (by cases o <;> decide)
    (by cases o <;> decide)
  exact this.append hw1

theorem binOp_balanced {o : BinOp} {ss : List (ScriptKind × Row)} {w : Row} (hw : WritesOp [o.char] ss w) :
    Balanced 0 w := by
  obtain ⟨w', rfl, hw1, -⟩ := writesOp_mem hw
  have : Balanced 0 ([o.char].map sy) := text_balanced (by cases o <;> decide) (by cases o <;> decide)
    (by cases o <;> decide)
  exact this.append hw1

/-- A formula of operators that are not looser can stand on the left of an operator. -/
theorem writes_asTight (hx : x.Usual) {k : Nat} {e : Formula} {l r : Nat} {row : Row}
    (he : e.Writes x l r row) : AsTight x k row → e.Writes x l k row := by
  induction he with
  | number hs => exact fun _ => .number hs
  | «variable» hs => exact fun _ => .variable hs
  | constant => exact fun _ => .constant
  | string hs => exact fun _ => .string hs
  | @bin l r a b p w q o n ks ss rows hl hr ha hw hs hb iha ihs ihb =>
    intro ht
    have hp := readable_of_writes ha
    have hbp := readable_balanced hx hp
    have hk : k ≤ o.level := by
      obtain ⟨w', rfl⟩ := writesOp_head hw
      exact ht.bin o p (w' ++ q) rfl hbp hp
    refine .bin hl hk ha hw hs (ihb ?_)
    rw [← List.append_assoc] at ht
    refine ht.right (hbp.append (binOp_balanced hw)) fun p' q' _ hp' => ?_
    rw [List.append_assoc]
    exact .bin hp hw (fun i => readable_of_writes (hs i)) hp'
  | @pre l r a w q o n ks ss rows hr hw hs ha hj ihs iha =>
    intro ht
    have hk : k ≤ o.level := by
      obtain ⟨w', rfl, -⟩ := writesOp_mem hw
      exact ht.pre o [] (w' ++ q) (by simp) .nil
    refine .pre hk hw hs (iha ?_) hj
    refine ht.right (preOp_balanced hw) fun p' q' he hp' => ?_
    refine .pre hw (fun i => readable_of_writes (hs i)) hp' (joins_left (q := q') ?_)
    rwa [List.append_assoc, ← he]
  | post h => exact fun _ => .post h
  | script ha hb => exact fun _ => .script ha hb
  | apply ha hb => exact fun _ => .apply ha hb
  | call ha => exact fun _ => .call ha
  | unit => exact fun _ => .unit
  | fraction ha hb => exact fun _ => .fraction ha hb
  | root ha hb => exact fun _ => .root ha hb
  | table h1 h2 h3 h4 => exact fun _ => .table h1 h2 h3 h4
  | brackets h => exact fun _ => .brackets h
  | @before l r e p _ ih =>
    refine fun ht => .before (ih ?_)
    exact AsTight.right (u := [sy ' ']) ht (.other (by decide) (by decide) (by decide) .nil)
      fun p' _ _ hp' => .before hp'
  | after _ ih => exact fun ht => .after (ih ht.left)

/-- No operator is looser than an equality. -/
theorem asTight_one (row : Row) : AsTight x 1 row :=
  ⟨fun o _ _ _ _ _ => by cases o <;> decide, fun o _ _ _ _ => by cases o <;> decide⟩

/-- Prefix operators matter only for products. -/
theorem asTight_of_bin {k : Nat} (hk : k ≤ 3) {row : Row} (h : ∀ (o : BinOp) (p q : Row),
    row = p ++ sy o.char :: q → Balanced 0 p → Readable x p → k ≤ o.level) : AsTight x k row :=
  ⟨h, fun o _ _ _ _ => Nat.le_trans hk (by cases o <;> decide)⟩

end Aftermath

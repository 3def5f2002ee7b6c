import Verif.Proof.Congruence
import Verif.Props.NotationConverse
import Verif.Props.Notation

/-! # C114: what stands in brackets or in a cell can be replaced by anything with the same meaning -/

namespace Aftermath

variable {x : Xid} {g : Grammar} {m : NameMap}

/-- Two rows with the same formulas are read alike. -/
private theorem read_alike (hx : x.Usual) (h : createParser x = .ok (g, m)) {row row' : Row}
    (hw : rowWf row = true) (hp : PlainRow row) (hw' : rowWf row' = true) (hp' : PlainRow row')
    (hi : ∀ e : Formula, e.Writes x 0 0 row ↔ e.Writes x 0 0 row') :
    ∃ t t', g.parse row = .ok t ∧ g.parse row' = .ok t' ∧ (ErrorFree g t ↔ ErrorFree g t') ∧
      ∀ e, Conveys m t e ↔ Conveys m t' e := by
  obtain ⟨g', m', h', hc⟩ := C78 x hx
  cases h.symm.trans h'
  obtain ⟨t, h1, h2, h3⟩ := hc row hw hp
  obtain ⟨t', h1', h2', h3'⟩ := hc row' hw' hp'
  refine ⟨t, t', h1, h1', ?_, fun e => ?_⟩
  · rw [h2, h2']
    exact exists_congr hi
  · rw [h3, h3', hi]

private theorem read_back (hx : x.Usual) (h : createParser x = .ok (g, m)) {row : Row} {t : SNode} {e : Formula}
    (hw : rowWf row = true) (hp : PlainRow row) (ht : g.parse row = .ok t) (he : Conveys m t e) :
    e.Writes x 0 0 row := by
  obtain ⟨g', m', h', hc⟩ := C78 x hx
  cases h.symm.trans h'
  obtain ⟨t', h1, -, h3⟩ := hc row hw hp
  cases ht.symm.trans h1
  exact (h3 e).1 he

/-- **C114**, the notation: what stands in brackets, in any row of a formula and outside of quotes, is
replaced. -/
theorem C114_written (hx : x.Usual) {f : Formula} {u v : Row} (hu : f.Writes x 0 0 u) (hv : f.Writes x 0 0 v)
    {root root' P Q : Row} {p : RowIndices} (hP : quoteAfter P = .out)
    (hr : ReplacedAt root p (P ++ (inBrackets u ++ Q)) (P ++ (inBrackets v ++ Q)) root') (e : Formula) :
    e.Writes x 0 0 root ↔ e.Writes x 0 0 root' := by
  have key : ∀ {u v : Row}, f.Writes x 0 0 u → f.Writes x 0 0 v → ∀ e : Formula,
      e.Writes x 0 0 (P ++ (inBrackets u ++ Q)) → e.Writes x 0 0 (P ++ (inBrackets v ++ Q)) := by
    intro u v hu hv e he
    refine writes_group hx (readable_balanced hx (readable_of_writes hu)) (readable_of_writes hu).ne_nil
      (fun e' he' => ?_) he P Q rfl hP
    rwa [C69_unambiguous x hx e' f u he' hu]
  exact ⟨writes_replacedAt hr (key hu hv) e, writes_replacedAt hr.symm (key hv hu) e⟩

/-- **C114.** Two rows have the same meaning. One of them stands in brackets, in a formula or in any row
within it, and not in a text in quotes. If it is replaced by the other one, then the formula has the same
meanings as before, and it is free of errors if and only if it was before. -/
theorem C114 (hx : x.Usual) (h : createParser x = .ok (g, m)) {f : Formula} {u v : Row} {tu tv : SNode}
    (hwu : rowWf u = true) (hpu : PlainRow u) (htu : g.parse u = .ok tu) (hu : Conveys m tu f)
    (hwv : rowWf v = true) (hpv : PlainRow v) (htv : g.parse v = .ok tv) (hv : Conveys m tv f)
    {root root' P Q : Row} {p : RowIndices} (hP : quoteAfter P = .out)
    (hr : ReplacedAt root p (P ++ (inBrackets u ++ Q)) (P ++ (inBrackets v ++ Q)) root')
    (hw : rowWf root = true) (hp : PlainRow root) (hw' : rowWf root' = true) (hp' : PlainRow root') :
    ∃ t t', g.parse root = .ok t ∧ g.parse root' = .ok t' ∧ (ErrorFree g t ↔ ErrorFree g t') ∧
      ∀ e, Conveys m t e ↔ Conveys m t' e :=
  read_alike hx h hw hp hw' hp' (C114_written hx (read_back hx h hwu hpu htu hu) (read_back hx h hwv hpv htv hv) hP hr)

/-- **C114** for cells: a whole row within a formula, such as an exponent or a numerator, is replaced by
one with the same meaning. No brackets are needed. -/
theorem C114_cell (hx : x.Usual) (h : createParser x = .ok (g, m)) {f : Formula} {u v : Row} {tu tv : SNode}
    (hwu : rowWf u = true) (hpu : PlainRow u) (htu : g.parse u = .ok tu) (hu : Conveys m tu f)
    (hwv : rowWf v = true) (hpv : PlainRow v) (htv : g.parse v = .ok tv) (hv : Conveys m tv f)
    {root root' : Row} {p : RowIndices} (hr : ReplacedAt root p u v root')
    (hw : rowWf root = true) (hp : PlainRow root) (hw' : rowWf root' = true) (hp' : PlainRow root') :
    ∃ t t', g.parse root = .ok t ∧ g.parse root' = .ok t' ∧ (ErrorFree g t ↔ ErrorFree g t') ∧
      ∀ e, Conveys m t e ↔ Conveys m t' e := by
  have hu' := read_back hx h hwu hpu htu hu
  have hv' := read_back hx h hwv hpv htv hv
  refine read_alike hx h hw hp hw' hp' fun e => ⟨writes_replacedAt hr (fun e' he => ?_) e,
    writes_replacedAt hr.symm (fun e' he => ?_) e⟩
  · rwa [C69_unambiguous x hx e' f u he hu']
  · rwa [C69_unambiguous x hx e' f v he hv']

/-- **C114** for brackets around a whole row: they are not part of the meaning, if there is something
between them and its own brackets are closed. So doubled brackets are as good as single ones. -/
theorem C114_brackets (hx : x.Usual) {u : Row} (hb : Balanced 0 u) (hne : u ≠ []) (e : Formula) :
    e.Writes x 0 0 (inBrackets u) ↔ e.Writes x 0 0 u :=
  ⟨fun he => writes_contents hx hb hne he rfl, .brackets⟩

/-- **C114** for doubled brackets anywhere in a formula. -/
theorem C114_doubled (hx : x.Usual) (h : createParser x = .ok (g, m)) {u : Row} (hb : Balanced 0 u)
    (hne : u ≠ []) {root root' P Q : Row} {p : RowIndices} (hP : quoteAfter P = .out)
    (hr : ReplacedAt root p (P ++ (inBrackets u ++ Q)) (P ++ (inBrackets (inBrackets u) ++ Q)) root')
    (hw : rowWf root = true) (hp : PlainRow root) (hw' : rowWf root' = true) (hp' : PlainRow root') :
    ∃ t t', g.parse root = .ok t ∧ g.parse root' = .ok t' ∧ (ErrorFree g t ↔ ErrorFree g t') ∧
      ∀ e, Conveys m t e ↔ Conveys m t' e := by
  have h1 := fun e he => (C114_brackets hx hb hne e).2 he
  have h2 := fun e he => (C114_brackets hx hb hne e).1 he
  exact read_alike hx h hw hp hw' hp' fun e =>
    ⟨writes_replacedAt hr (fun e' he => writes_group hx hb hne h1 he P Q rfl hP) e,
      writes_replacedAt hr.symm (fun e' he =>
        writes_group hx (brackets_balanced hb) (by simp [inBrackets]) h2 he P Q rfl hP) e⟩

/-! ## Examples -/

private theorem letter {c : Char} (h : letterXid.start c = true) :
    (Formula.variable [c]).Writes letterXid 0 0 [sy c] :=
  .variable ⟨c, [], rfl, h, nofun, by simp⟩

/-- `a*(b)` and `a*( b )` in an exponent have the same formulas. -/
example (e : Formula) :
    e.Writes letterXid 0 0 [sy 'c', .container .sup [rowOf "a*(b)"] 1] ↔
      e.Writes letterXid 0 0 [sy 'c', .container .sup [rowOf "a*( b )"] 1] := by
  have hb := letter (c := 'b') (by decide +kernel)
  refine C114_written letterXid_usual (P := rowOf "a*") (Q := []) (p := [(1, 0)]) hb (.before (.after hb))
    (by decide +kernel) ?_ e
  exact replacedAt_set (r := [sy 'c', .container .sup [rowOf "a*(b)"] 1]) (i := 1) (j := 0) rfl rfl (.here _ _)

/-- Without brackets this would not be so: the rows `a` and ` a` mean the same, but behind a `b` the one
makes a longer name and the other makes an error. -/
example : (∃ e : Formula, e.Writes letterXid 0 0 (rowOf "ba")) ∧
    ¬ ∃ e : Formula, e.Writes letterXid 0 0 (rowOf "b a") := by
  rw [← readsText_iff, ← readsText_iff]
  decide +kernel

/-- What stands in quotes is not to be replaced: the strings `"(a)"` and `"( a)"` are different. -/
example : quoteAfter (rowOf "\"") ≠ .out := by decide +kernel

/-- The brackets of `()` cannot be left out, and those of `(a)+(b)` are not around the whole. -/
example : (∃ e : Formula, e.Writes letterXid 0 0 (inBrackets [])) ∧
    (¬ ∃ e : Formula, e.Writes letterXid 0 0 []) ∧
    (∃ e : Formula, e.Writes letterXid 0 0 (inBrackets (rowOf "a)+(b"))) ∧
    ¬ ∃ e : Formula, e.Writes letterXid 0 0 (rowOf "a)+(b") := by
  refine ⟨⟨_, .unit⟩, fun ⟨e, he⟩ => (readable_of_writes he).ne_nil rfl, ?_, ?_⟩
  · have : inBrackets (rowOf "a)+(b") = rowOf "(a)+(b)" := by decide +kernel
    rw [this, ← readsText_iff]
    decide +kernel
  · rw [← readsText_iff]
    decide +kernel

end Aftermath

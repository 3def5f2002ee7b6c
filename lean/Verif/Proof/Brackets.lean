import Verif.Spec.Brackets
import Verif.Proof.Effort
import Verif.Proof.ParseMono

/-! # Reading the same row alone and inside of brackets

Two runs go in step: one on a balanced row, one on a longer row in which the same nodes are followed by
a closing bracket or by nothing. -/

namespace Aftermath

/-- Whenever the first has a result, so has the second, and `R` holds for them. -/
def Sim {α β : Type} (x : M α) (y : M β) (R : α → β → Prop) : Prop :=
  ∀ a, x = .ok a → ∃ b, y = .ok b ∧ R a b

theorem Sim.bind_of {α β γ δ : Type} {x : M α} {y : M β} {f : α → M γ} {g : β → M δ}
    {R : α → β → Prop} {S : γ → δ → Prop} (h : Sim x y R)
    (hf : ∀ a b, x = .ok a → R a b → Sim (f a) (g b) S) : Sim (x >>= f) (y >>= g) S := by
  intro c hc
  obtain ⟨a, ha, hc⟩ := M.bind_eq_ok.1 hc
  obtain ⟨b, hb, hab⟩ := h a ha
  obtain ⟨d, hd, hcd⟩ := hf a b ha hab c hc
  exact ⟨d, M.bind_eq_ok.2 ⟨b, hb, hd⟩, hcd⟩

theorem Sim.bind {α β γ δ : Type} {x : M α} {y : M β} {f : α → M γ} {g : β → M δ}
    {R : α → β → Prop} {S : γ → δ → Prop} (h : Sim x y R)
    (hf : ∀ a b, R a b → Sim (f a) (g b) S) : Sim (x >>= f) (y >>= g) S :=
  h.bind_of fun a b _ => hf a b

theorem Sim.ok {α β : Type} {a : α} {b : β} {R : α → β → Prop} (h : R a b) :
    Sim (.ok a) (.ok b) R := by
  intro c hc
  cases hc
  exact ⟨b, rfl, h⟩

theorem Sim.error {α β : Type} {e : Panic} {y : M β} {R : α → β → Prop} :
    Sim (.error e) y R := fun _ h => by cases h

theorem Sim.imp {α β : Type} {x : M α} {y : M β} {R S : α → β → Prop} (h : Sim x y R)
    (hi : ∀ a b, R a b → S a b) : Sim x y S := by
  intro a ha
  obtain ⟨b, hb, hab⟩ := h a ha
  exact ⟨b, hb, hi a b hab⟩

/-! ## Trees further to the right -/

variable {k : Nat}

@[simp] theorem shift_lo (t : SNode) : (t.shift k).lo = k + t.lo := by
  cases t <;> simp only [SNode.shift, SNode.lo]
@[simp] theorem shift_hi (t : SNode) : (t.shift k).hi = k + t.hi := by
  cases t <;> simp only [SNode.shift, SNode.hi]

theorem shiftAll_map (k : Nat) : ∀ ts : List SNode, SNode.shiftAll k ts = ts.map (·.shift k)
  | [] => rfl
  | t :: ts => by rw [SNode.shiftAll, List.map_cons, shiftAll_map k ts]

/-- see `SNode.shift` -/
def SChildren.shift (k : Nat) : SChildren → SChildren
  | .newRows cells w => .newRows cells w
  | .children cs => .children (SNode.shiftAll k cs)
  | .leaf ty ss => .leaf ty ss

/-- see `SNode.shift` -/
def PResult.shift (k : Nat) : PResult → PResult
  | .expression t => .expression (t.shift k)
  | .stop t => .stop (t.shift k)

theorem PResult.shift_node (r : PResult) : (r.shift k).node = r.node.shift k := by
  cases r <;> rfl

theorem contiguousFrom_shift : ∀ (cs : List SNode) (stop : Nat),
    Sim (SNode.contiguousFrom stop cs) (SNode.contiguousFrom (k + stop) (SNode.shiftAll k cs))
      fun a b => b = k + a
  | [], stop => Sim.ok rfl
  | c :: cs, stop => by
    unfold SNode.contiguousFrom SNode.shiftAll
    by_cases h : stop = c.lo
    · subst h
      simp only [shift_lo, shift_hi]
      exact Sim.bind (R := fun _ _ => True) (by
        simp only [massert, beq_self_eq_true, if_true]
        exact Sim.ok trivial) fun _ _ _ => contiguousFrom_shift cs _
    · intro a ha
      simp [massert, h] at ha

theorem new_shift (n lo hi : Nat) (c : SChildren) :
    Sim (SNode.new n lo hi c) (SNode.new n (k + lo) (k + hi) (c.shift k))
      fun a b => b = a.shift k := by
  cases c with
  | newRows cells w => exact Sim.ok (by simp only [SNode.make, SNode.shift, SChildren.shift])
  | leaf ty ss => exact Sim.ok (by simp only [SNode.make, SNode.shift, SChildren.shift])
  | children cs =>
    cases cs with
    | nil => exact Sim.ok (by simp only [SNode.make, SNode.shift, SNode.shiftAll, SChildren.shift])
    | cons t ts =>
      unfold SNode.new
      refine Sim.bind (R := fun a b => b = a.map fun r => (k + r.1, k + r.2)) ?_ ?_
      · simp only [SChildren.shift, SNode.shiftAll, SNode.combinedRange, shift_hi, shift_lo]
        refine Sim.bind (contiguousFrom_shift ts t.hi) ?_
        rintro a b rfl
        exact Sim.ok rfl
      · rintro a b rfl
        cases a with
        | none => exact Sim.ok (by simp only [SNode.make, SNode.shift, SChildren.shift])
        | some r =>
          obtain ⟨s, e⟩ := r
          refine Sim.bind (R := fun _ _ => True) ?_ fun _ _ _ => Sim.ok (by
            simp only [SChildren.shift, SNode.make, SNode.shift])
          intro u hu
          refine ⟨(), ?_, trivial⟩
          simp only [massert] at hu ⊢
          split at hu
          · rename_i h
            simp only [Bool.and_eq_true, decide_eq_true_eq] at h
            rw [if_pos (by simp only [Bool.and_eq_true, decide_eq_true_eq]; omega)]
          · cases hu

/-! ## Rows further to the right -/

/-- Nothing or a closing bracket comes. -/
def Guard (tail : Row) : Prop := tail = [] ∨ ∃ post, tail = .symbol [')'] :: post

theorem symRun_guard {f : Str → Bool} (hf : f [')'] = false) {tail : Row} (ht : Guard tail) :
    ∀ l : Row, symRun f (l ++ tail) = symRun f l
  | [] => by
    rcases ht with rfl | ⟨post, rfl⟩
    · rfl
    · simp [symRun, hf]
  | .container _ _ _ :: l => rfl
  | .symbol s :: l => by
    simp only [List.cons_append, symRun, symRun_guard hf ht l]

theorem symRun_length (f : Str → Bool) : ∀ l : Row, (symRun f l).length ≤ l.length
  | [] => Nat.le_refl _
  | .container _ _ _ :: l => Nat.zero_le _
  | .symbol s :: l => by
    rw [symRun]
    split
    · have := symRun_length f l
      simp only [List.length_cons]
      omega
    · exact Nat.zero_le _

/-- None of the symbols that matter for `Balanced`. -/
def Ordinary (s : Str) : Prop := s ≠ ['('] ∧ s ≠ [')'] ∧ s ≠ ['"']

theorem Balanced.of_ordinary {d : Nat} {s : Str} {r : Row} (hs : Ordinary s)
    (h : Balanced d (.symbol s :: r)) : Balanced d r := by
  cases h with
  | opening _ => exact absurd rfl hs.1
  | closing _ => exact absurd rfl hs.2.1
  | quotes _ _ => exact absurd rfl hs.2.2
  | other _ _ _ h => exact h

theorem Balanced.run {f : Str → Bool} (hf : ∀ s, f s = true → Ordinary s) {d : Nat} :
    ∀ {l : Row}, Balanced d l → Balanced d (l.drop (symRun f l).length)
  | [], h => h
  | .container _ _ _ :: _, h => h
  | .symbol s :: l, h => by
    rw [symRun]
    split
    · rename_i hs
      simpa using Balanced.run hf (h.of_ordinary (hf s hs))
    · exact h

theorem Balanced.symbols {d : Nat} : ∀ {ss : List Str} {l : Row}, (∀ s ∈ ss, Ordinary s) →
    ss.map Node.symbol <+: l → Balanced d l → Balanced d (l.drop ss.length)
  | [], _, _, _, h => by simpa using h
  | s :: ss, [], _, hp, _ => by simp at hp
  | s :: ss, n :: l, hs, hp, h => by
    rw [List.map_cons, List.cons_prefix_cons] at hp
    obtain ⟨rfl, hp⟩ := hp
    simpa using Balanced.symbols (fun s h => hs s (List.mem_cons_of_mem _ h)) hp
      (h.of_ordinary (hs s (List.mem_cons_self ..)))

theorem prefix_guard {tail : Row} (ht : Guard tail) : ∀ {ss : List Str} {l : Row},
    (∀ s ∈ ss, Ordinary s) → (ss.map Node.symbol).isPrefixOf (l ++ tail) =
      (ss.map Node.symbol).isPrefixOf l
  | [], _, _ => by simp
  | s :: ss, [], hs => by
    rcases ht with rfl | ⟨post, rfl⟩
    · rfl
    · have := (hs s (List.mem_cons_self ..)).2.1
      simp [List.isPrefixOf, this]
  | s :: ss, n :: l, hs => by
    simp only [List.map_cons, List.cons_append, List.isPrefixOf,
      prefix_guard ht fun s h => hs s (List.mem_cons_of_mem _ h)]

theorem stringBody_quoted {l : List Str} (h : InQuotes l) (r : Row) :
    stringBody (l.map Node.symbol ++ .symbol ['"'] :: r) = l := by
  induction h with
  | nil => rw [List.map_nil, List.nil_append, stringBody.eq_def]; rfl
  | plain h1 h2 _ ih =>
    rw [List.map_cons, List.cons_append, stringBody.eq_def]
    simp [h1, h2, ih]
  | escaped _ ih =>
    rw [List.map_cons, List.map_cons, List.cons_append, List.cons_append, stringBody.eq_def]
    simp [ih]

/-- A quote in a balanced row starts a string. -/
theorem Balanced.quote {d : Nat} {r : Row} (h : Balanced d (.symbol ['"'] :: r)) :
    ∃ l r', InQuotes l ∧ r = l.map Node.symbol ++ .symbol ['"'] :: r' ∧ Balanced d r' := by
  cases h with
  | quotes hl hr => exact ⟨_, _, hl, rfl, hr⟩
  | other _ _ h _ => exact absurd rfl h

theorem Balanced.open {d : Nat} {r : Row} (h : Balanced d (.symbol ['('] :: r)) :
    Balanced (d + 1) r := by
  cases h with
  | opening h => exact h
  | other h _ _ _ => exact absurd rfl h

theorem Balanced.close {d : Nat} {r : Row} (h : Balanced d (.symbol [')'] :: r)) :
    ∃ d', d = d' + 1 ∧ Balanced d' r := by
  cases h with
  | closing h => exact ⟨_, rfl, h⟩
  | other _ h _ _ => exact absurd rfl h

theorem Balanced.container_tail {d : Nat} {v : Variant} {c : List Row} {w : Nat} {r : Row}
    (h : Balanced d (.container v c w :: r)) : Balanced d r := by
  cases h with
  | container h => exact h

/-- The first row is part of the second one, `k` places further to the right, and nothing or a
closing bracket comes behind it. -/
structure Part (k : Nat) (row₁ row₂ tail : Row) : Prop where
  guard : Guard tail
  part : ∃ pre, pre.length = k ∧ row₂ = pre ++ (row₁ ++ tail)

namespace Part

variable {row₁ row₂ tail : Row} {pos d : Nat}

theorem drop (h : Part k row₁ row₂ tail) (hp : pos ≤ row₁.length) :
    row₂.drop (k + pos) = row₁.drop pos ++ tail := by
  obtain ⟨pre, rfl, rfl⟩ := h.part
  rw [List.drop_append, List.drop_eq_nil_of_le (by omega), List.nil_append, Nat.add_sub_cancel_left,
    List.drop_append_of_le_length hp]

theorem get (h : Part k row₁ row₂ tail) (hp : pos < row₁.length) : row₂[k + pos]? = row₁[pos]? := by
  obtain ⟨pre, rfl, rfl⟩ := h.part
  rw [List.getElem?_append_right (by omega), Nat.add_sub_cancel_left, List.getElem?_append_left hp]

theorem get_end (h : Part k row₁ row₂ tail) : row₂[k + row₁.length]? = tail.head? := by
  obtain ⟨pre, rfl, rfl⟩ := h.part
  rw [List.getElem?_append_right (by omega), Nat.add_sub_cancel_left,
    List.getElem?_append_right (Nat.le_refl _), Nat.sub_self, List.head?_eq_getElem?]

theorem length (h : Part k row₁ row₂ tail) : row₂.length = k + row₁.length + tail.length := by
  obtain ⟨pre, rfl, rfl⟩ := h.part
  simp only [List.length_append]
  omega

theorem selectSym (h : Part k row₁ row₂ tail) (hp : pos ≤ row₁.length) {f : Str → Bool}
    (hf : pos < row₁.length ∨ f [')'] = false) :
    selectSym f row₂ (k + pos) = (selectSym f row₁ pos).map fun r => (r.1, k + r.2) := by
  by_cases hlt : pos < row₁.length
  · simp only [Aftermath.selectSym, h.get hlt]
    cases row₁[pos]? with
    | none => rfl
    | some n =>
      cases n with
      | container _ _ _ => rfl
      | symbol s => by_cases hs : f s <;> simp [hs, Nat.add_assoc]
  · obtain rfl : pos = row₁.length := by omega
    have hf := hf.resolve_left (Nat.lt_irrefl _)
    simp only [Aftermath.selectSym, h.get_end, List.getElem?_eq_none (Nat.le_refl _)]
    rcases h.guard with rfl | ⟨post, rfl⟩
    · rfl
    · simp [hf]

theorem symRun (h : Part k row₁ row₂ tail) (hp : pos ≤ row₁.length) {f : Str → Bool}
    (hf : f [')'] = false) : symRun f (row₂.drop (k + pos)) = symRun f (row₁.drop pos) := by
  rw [h.drop hp, symRun_guard hf h.guard]

end Part

/-! ## Tokens -/

/-- Brackets and quotes are not used for anything else. -/
def TokenParser.Tame : TokenParser → Prop
  | .symbols ss _ => ss ≠ [] ∧ ∀ s ∈ ss, Ordinary s
  | .brackets n o c => n = 0 ∧ o = ['('] ∧ c = [')']
  | .emptyBrackets _ o c => o = ['('] ∧ c = [')']
  | _ => True

/-- see `TokenParser.Tame` -/
structure Grammar.Tame (g : Grammar) : Prop where
  rules : ∀ role, ∀ r ∈ g.ofRole role, r.parser.Tame
  round : ∃ r ∈ g.atoms, ∃ n, r.parser = .brackets n ['('] [')']
  string : ∃ r ∈ g.atoms, r.parser = .string
  start : ∀ c ∈ ['(', ')', '"'], g.xidStart c = false
  continue_ : ∀ c ∈ ['(', ')', '"'], g.xidContinue c = false

theorem ordinary_of {f : Str → Bool} (h1 : f ['('] = false) (h2 : f [')'] = false)
    (h3 : f ['"'] = false) (s : Str) (hs : f s = true) : Ordinary s := by
  refine ⟨?_, ?_, ?_⟩ <;> rintro rfl
  · rw [h1] at hs; cases hs
  · rw [h2] at hs; cases hs
  · rw [h3] at hs; cases hs

/-- Where a call ends that began with `d` brackets open: at the closing bracket, or at the end of the
row. -/
def Final (row : Row) : Nat → Nat → Prop
  | 0, p => p = row.length
  | _ + 1, p => row[p]? = some (.symbol [')'])

/-- The endings of the two calls. -/
inductive Endings (tail : Row) : Nat → Ending → Ending → Prop
  | inner {d : Nat} : Endings tail (d + 1) (.sym [')']) (.sym [')'])
  | eof : tail = [] → Endings tail 0 .eof .eof
  | closes {post : Row} : tail = .symbol [')'] :: post → Endings tail 0 .eof (.sym [')'])

/-- The calls go in step. -/
def GoAlong (call : Rec) (k : Nat) (row₁ row₂ tail : Row) : Prop :=
  ∀ pos d min e₁ e₂, pos ≤ row₁.length → Balanced d (row₁.drop pos) → Endings tail d e₁ e₂ →
    Sim (call row₁ pos min e₁) (call row₂ (k + pos) min e₂) fun a b =>
      b = (a.1.shift k, k + a.2) ∧ a.2 ≤ row₁.length ∧ Balanced d (row₁.drop a.2) ∧
        (∀ t, a.1 = .stop t → Final row₁ d a.2) ∧ ∀ t, a.1 = .expression t → min ≠ (0, .weak)

/-- What is read of a token. -/
def TokenStep (k d : Nat) (row₁ : Row) (a b : Option (SChildren × Nat)) : Prop :=
  b = a.map (fun r => (r.1.shift k, k + r.2)) ∧
    ∀ c p, a = some (c, p) → p ≤ row₁.length ∧ Balanced d (row₁.drop p)

variable {g : Grammar} {row₁ row₂ tail : Row} {pos d : Nat} {call : Rec}

theorem selectSym_cases {f : Str → Bool} {row : Row} {pos : Nat} :
    (selectSym f row pos = none) ∨ ∃ s rest, row.drop pos = .symbol s :: rest ∧ f s = true ∧
      selectSym f row pos = some (s, pos + 1) ∧ pos + 1 ≤ row.length ∧ row.drop (pos + 1) = rest := by
  unfold selectSym
  cases hg : row[pos]? with
  | none => exact .inl rfl
  | some n =>
    cases n with
    | container _ _ _ => exact .inl rfl
    | symbol s =>
      by_cases hs : f s = true
      · obtain ⟨hlt, he⟩ := List.getElem?_eq_some_iff.1 hg
        refine .inr ⟨s, row.drop (pos + 1), ?_, hs, by simp only [hs, if_true], hlt, rfl⟩
        rw [List.drop_eq_getElem_cons hlt, he]
      · exact .inl (by simp only [hs]; rfl)

theorem bracketLeaf_shift (n lo hi : Nat) (s : Str) :
    SNode.new n (k + lo) (k + hi) (.leaf .operator [s]) =
      .ok ((SNode.leaf n lo hi .operator [s]).shift k) := by
  rw [new_leaf, SNode.shift]

theorem brackets_step (hc : GoAlong call k row₁ row₂ tail) (h : Part k row₁ row₂ tail)
    (hp : pos ≤ row₁.length) (hb : Balanced d (row₁.drop pos)) (n : Nat) :
    Sim (parseBrackets call n ['('] [')'] row₁ pos) (parseBrackets call n ['('] [')'] row₂ (k + pos))
      (TokenStep k d row₁) := by
  unfold parseBrackets
  rw [h.selectSym hp (.inr rfl)]
  rcases selectSym_cases (f := fun s => s == ['(']) (row := row₁) (pos := pos) with
    hs | ⟨s, rest, hd, hf, hs, hlt, hd'⟩
  · rw [hs]
    exact Sim.ok ⟨rfl, nofun⟩
  · obtain rfl : s = ['('] := by simpa using hf
    rw [hs]
    simp only [Option.map_some]
    rw [hd] at hb
    have hb' : Balanced (d + 1) (row₁.drop (pos + 1)) := hd' ▸ hb.open
    refine Sim.bind (hc (pos + 1) (d + 1) (0, .weak) _ _ hlt hb' .inner) ?_
    rintro ⟨child, p2⟩ _ ⟨rfl, hle, hb2, hst, hex⟩
    have hfin : Final row₁ (d + 1) p2 := by
      cases child with
      | stop t => exact hst t rfl
      | expression t => exact absurd rfl (hex t rfl)
    have hget : row₁[p2]? = some (.symbol [')']) := hfin
    obtain ⟨hlt2, he2⟩ := List.getElem?_eq_some_iff.1 hget
    have hs2 : selectSym (fun s => s == [')']) row₁ p2 = some ([')'], p2 + 1) := by
      simp [selectSym, hget]
    simp only [h.selectSym hle (.inl hlt2), hs2, Option.map_some, new_leaf, M.ok_bind,
      PResult.shift_node]
    have hb3 : Balanced d (row₁.drop (p2 + 1)) := by
      rw [List.drop_eq_getElem_cons hlt2, he2] at hb2
      obtain ⟨d', he, hb3⟩ := hb2.close
      cases he
      exact hb3
    refine Sim.ok ⟨?_, ?_⟩
    · simp only [Option.map_some, SChildren.shift, SNode.shiftAll, SNode.shift]
    · rintro _ _ ⟨⟩
      exact ⟨hlt2, hb3⟩

theorem emptyBrackets_step (h : Part k row₁ row₂ tail) (hp : pos ≤ row₁.length)
    (hb : Balanced d (row₁.drop pos)) (n : Nat) :
    Sim (parseEmptyBrackets n ['('] [')'] row₁ pos)
      (parseEmptyBrackets n ['('] [')'] row₂ (k + pos)) (TokenStep k d row₁) := by
  unfold parseEmptyBrackets
  rw [h.selectSym hp (.inr rfl)]
  rcases selectSym_cases (f := fun s => s == ['(']) (row := row₁) (pos := pos) with
    hs | ⟨s, rest, hd, hf, hs, hlt, hd'⟩
  · rw [hs]
    exact Sim.ok ⟨rfl, nofun⟩
  · obtain rfl : s = ['('] := by simpa using hf
    rw [hs]
    simp only [Option.map_some]
    rw [hd] at hb
    have hb' : Balanced (d + 1) (row₁.drop (pos + 1)) := hd' ▸ hb.open
    have hlt' : pos + 1 < row₁.length := by
      refine Nat.lt_of_le_of_ne hlt fun he => ?_
      rw [he, List.drop_length] at hb'
      cases hb'
    rw [h.selectSym hlt (.inl hlt')]
    rcases selectSym_cases (f := fun s => s == [')']) (row := row₁) (pos := pos + 1) with
      hs | ⟨s, rest, hd, hf, hs, hlt, hd'⟩
    · rw [hs]
      exact Sim.ok ⟨rfl, nofun⟩
    · obtain rfl : s = [')'] := by simpa using hf
      rw [hs]
      simp only [Option.map_some, new_leaf, M.ok_bind]
      rw [hd] at hb'
      obtain ⟨d', he, hb3⟩ := hb'.close
      cases he
      refine Sim.ok ⟨?_, ?_⟩
      · simp only [Option.map_some, SChildren.shift, SNode.shiftAll, SNode.shift]
      · rintro _ _ ⟨⟩
        exact ⟨hlt, hd' ▸ hb3⟩

theorem container_step (h : Part k row₁ row₂ tail) (hp : pos ≤ row₁.length)
    (hb : Balanced d (row₁.drop pos)) (v : Variant) :
    Sim (parseContainer call v row₁ pos) (parseContainer call v row₂ (k + pos))
      (TokenStep k d row₁) := by
  unfold parseContainer
  by_cases hlt : pos < row₁.length
  · rw [h.get hlt, List.getElem?_eq_getElem hlt]
    rw [List.drop_eq_getElem_cons hlt] at hb
    cases hn : row₁[pos] with
    | symbol s => exact Sim.ok ⟨rfl, nofun⟩
    | container v' cells w =>
      rw [hn] at hb
      dsimp only
      split
      · refine Sim.bind (R := Eq) (fun a ha => ⟨a, ha, rfl⟩) ?_
        rintro ts _ rfl
        refine Sim.bind (R := Eq) (fun a ha => ⟨a, ha, rfl⟩) ?_
        rintro gr _ rfl
        refine Sim.ok ⟨rfl, ?_⟩
        rintro _ _ ⟨⟩
        exact ⟨hlt, hb.container_tail⟩
      · exact Sim.ok ⟨rfl, nofun⟩
  · obtain rfl : pos = row₁.length := by omega
    rw [h.get_end, List.getElem?_eq_none (Nat.le_refl _)]
    rcases h.guard with rfl | ⟨post, rfl⟩
    · exact Sim.ok ⟨rfl, nofun⟩
    · exact Sim.ok ⟨rfl, nofun⟩

/-- Reading symbols one after the other. -/
theorem run_step (hb : Balanced d (row₁.drop pos)) (hp : pos ≤ row₁.length) {f : Str → Bool}
    (hf : ∀ s, f s = true → Ordinary s) :
    pos + (symRun f (row₁.drop pos)).length ≤ row₁.length ∧
      Balanced d (row₁.drop (pos + (symRun f (row₁.drop pos)).length)) := by
  constructor
  · have := symRun_length f (row₁.drop pos)
    rw [List.length_drop] at this
    omega
  · have := hb.run hf
    rwa [List.drop_drop] at this

theorem isDigits_ordinary : ∀ s, isDigits s = true → Ordinary s :=
  ordinary_of (by decide +kernel) (by decide +kernel) (by decide +kernel)

theorem numberDigits_step (h : Part k row₁ row₂ tail) (hp : pos ≤ row₁.length)
    (hb : Balanced d (row₁.drop pos)) :
    numberDigits row₂ (k + pos) = (numberDigits row₁ pos).map (fun r => (r.1, k + r.2)) ∧
      ∀ a p, numberDigits row₁ pos = some (a, p) → p ≤ row₁.length ∧ Balanced d (row₁.drop p) := by
  unfold numberDigits
  rw [h.symRun hp (by decide +kernel)]
  have := run_step hb hp isDigits_ordinary
  dsimp only
  split
  · exact ⟨rfl, nofun⟩
  · refine ⟨by simp [Nat.add_assoc], ?_⟩
    rintro _ _ ⟨⟩
    exact this

theorem fractional_step (h : Part k row₁ row₂ tail) (hp : pos ≤ row₁.length)
    (hb : Balanced d (row₁.drop pos)) :
    parseFractional row₂ (k + pos) = (parseFractional row₁ pos).map (fun r => (r.1, k + r.2)) ∧
      ∀ a p, parseFractional row₁ pos = some (a, p) → p ≤ row₁.length ∧
        Balanced d (row₁.drop p) := by
  unfold parseFractional
  rw [h.selectSym hp (.inr rfl)]
  rcases selectSym_cases (f := fun s => s == ['.']) (row := row₁) (pos := pos) with
    hs | ⟨s, rest, hd, hf, hs, hlt, hd'⟩
  · rw [hs]
    exact ⟨rfl, nofun⟩
  · obtain rfl : s = ['.'] := by simpa using hf
    rw [hs]
    rw [hd] at hb
    have hb' : Balanced d (row₁.drop (pos + 1)) :=
      hd' ▸ hb.of_ordinary ⟨by decide, by decide, by decide⟩
    obtain ⟨h1, h2⟩ := numberDigits_step h hlt hb'
    simp only [Option.map_some, Option.bind_eq_bind, Option.bind_some, h1]
    cases hn : numberDigits row₁ (pos + 1) with
    | none => exact ⟨rfl, nofun⟩
    | some x =>
      obtain ⟨a, p⟩ := x
      refine ⟨rfl, ?_⟩
      rintro _ _ ⟨⟩
      exact h2 _ _ hn

theorem number_step (h : Part k row₁ row₂ tail) (hp : pos ≤ row₁.length)
    (hb : Balanced d (row₁.drop pos)) :
    TokenStep k d row₁ (parseNumber row₁ pos) (parseNumber row₂ (k + pos)) := by
  unfold parseNumber
  obtain ⟨h1, h2⟩ := numberDigits_step h hp hb
  rw [h1]
  cases hn : numberDigits row₁ pos with
  | none => exact ⟨rfl, nofun⟩
  | some x =>
    obtain ⟨a, p⟩ := x
    obtain ⟨hle, hb1⟩ := h2 _ _ hn
    obtain ⟨h3, h4⟩ := fractional_step h hle hb1
    simp only [Option.map_some, Option.bind_eq_bind, Option.bind_some, h3]
    cases hm : parseFractional row₁ p with
    | none =>
      refine ⟨rfl, ?_⟩
      rintro _ _ ⟨⟩
      exact ⟨hle, hb1⟩
    | some y =>
      obtain ⟨b, q⟩ := y
      refine ⟨rfl, ?_⟩
      rintro _ _ ⟨⟩
      exact h4 _ _ hm

theorem variable_step (hg : g.Tame) (h : Part k row₁ row₂ tail) (hp : pos ≤ row₁.length)
    (hb : Balanced d (row₁.drop pos)) :
    TokenStep k d row₁ (parseVariable g row₁ pos) (parseVariable g row₂ (k + pos)) := by
  have hst : ∀ s, isIdentifierStart g s = true → Ordinary s := ordinary_of
    (by simp [isIdentifierStart, hg.start]) (by simp [isIdentifierStart, hg.start])
    (by simp [isIdentifierStart, hg.start])
  have hco : ∀ s, isIdentifierContinue g s = true → Ordinary s := ordinary_of
    (by simp [isIdentifierContinue, hg.continue_]) (by simp [isIdentifierContinue, hg.continue_])
    (by simp [isIdentifierContinue, hg.continue_])
  unfold parseVariable
  rw [h.selectSym hp (.inr (by simp [isIdentifierStart, hg.start]))]
  rcases selectSym_cases (f := isIdentifierStart g) (row := row₁) (pos := pos) with
    hs | ⟨s, rest, hd, hf, hs, hlt, hd'⟩
  · rw [hs]
    exact ⟨rfl, nofun⟩
  · rw [hs]
    rw [hd] at hb
    have hb' : Balanced d (row₁.drop (pos + 1)) := hd' ▸ hb.of_ordinary (hst s hf)
    simp only [Option.map_some, Option.bind_eq_bind, Option.bind_some]
    rw [h.symRun hlt (by simp [isIdentifierContinue, hg.continue_])]
    refine ⟨by simp [SChildren.shift, Nat.add_assoc], ?_⟩
    rintro _ _ ⟨⟩
    exact run_step hb' hlt hco

theorem string_step (h : Part k row₁ row₂ tail) (hp : pos ≤ row₁.length)
    (hb : Balanced d (row₁.drop pos)) :
    TokenStep k d row₁ (parseString row₁ pos) (parseString row₂ (k + pos)) := by
  unfold parseString
  rw [h.selectSym hp (.inr rfl)]
  rcases selectSym_cases (f := fun s => s == ['"']) (row := row₁) (pos := pos) with
    hs | ⟨s, rest, hd, hf, hs, hlt, hd'⟩
  · rw [hs]
    exact ⟨rfl, nofun⟩
  · obtain rfl : s = ['"'] := by simpa using hf
    rw [hs]
    rw [hd] at hb
    obtain ⟨l, r', hl, rfl, hb'⟩ := hb.quote
    simp only [Option.map_some, Option.bind_eq_bind, Option.bind_some]
    have hd2 : row₂.drop (k + (pos + 1)) = l.map Node.symbol ++ .symbol ['"'] :: (r' ++ tail) := by
      rw [h.drop hlt, hd', List.append_assoc, List.cons_append]
    rw [hd2, hd', stringBody_quoted hl, stringBody_quoted hl]
    have hd3 : row₁.drop (pos + 1 + l.length) = .symbol ['"'] :: r' := by
      rw [← List.drop_drop, hd', List.drop_left' (List.length_map _)]
    obtain ⟨hget, hd4⟩ := drop_cons hd3
    obtain ⟨hlt3, he⟩ := List.getElem?_eq_some_iff.1 hget
    have hs2 : selectSym (fun s => s == ['"']) row₁ (pos + 1 + l.length) =
        some (['"'], pos + 1 + l.length + 1) := by simp [selectSym, hget]
    rw [Nat.add_assoc k, h.selectSym (Nat.le_of_lt hlt3) (.inl hlt3), hs2]
    refine ⟨rfl, ?_⟩
    rintro _ _ ⟨⟩
    exact ⟨hlt3, hd4 ▸ hb'⟩

theorem symbols_step (h : Part k row₁ row₂ tail) (hp : pos ≤ row₁.length)
    (hb : Balanced d (row₁.drop pos)) {ss : List Str} (hs : ∀ s ∈ ss, Ordinary s) (ty : LeafType) :
    TokenStep k d row₁ ((justSymbols ss row₁ pos).map fun r => (.leaf ty [r.1], r.2))
      ((justSymbols ss row₂ (k + pos)).map fun r => (.leaf ty [r.1], r.2)) := by
  unfold justSymbols
  rw [h.drop hp, prefix_guard h.guard hs]
  split
  · rename_i hpre
    refine ⟨by simp [SChildren.shift, Nat.add_assoc], ?_⟩
    rintro _ _ ⟨⟩
    have hpre := List.isPrefixOf_iff_prefix.1 hpre
    have hle := hpre.length_le
    rw [List.length_map, List.length_drop] at hle
    refine ⟨by dsimp only; omega, ?_⟩
    have := hb.symbols hs hpre
    rwa [List.drop_drop] at this
  · exact ⟨rfl, nofun⟩

theorem token_step (hg : g.Tame) (hc : GoAlong call k row₁ row₂ tail) (h : Part k row₁ row₂ tail)
    (hp : pos ≤ row₁.length) (hb : Balanced d (row₁.drop pos)) {tp : TokenParser} (ht : tp.Tame) :
    Sim (tokenParse call g tp row₁ pos) (tokenParse call g tp row₂ (k + pos))
      (TokenStep k d row₁) := by
  cases tp with
  | symbols ss ty => exact Sim.ok (symbols_step h hp hb ht.2 ty)
  | brackets n o c =>
    obtain ⟨-, rfl, rfl⟩ := ht
    exact brackets_step hc h hp hb n
  | emptyBrackets n o c =>
    obtain ⟨rfl, rfl⟩ := ht
    exact emptyBrackets_step h hp hb n
  | container v => exact container_step h hp hb v
  | «variable» => exact Sim.ok (variable_step hg h hp hb)
  | number => exact Sim.ok (number_step h hp hb)
  | string => exact Sim.ok (string_step h hp hb)

/-! ## Rules -/

/-- What is read with spaces and scripts. -/
def NodeStep (k d : Nat) (row₁ : Row) (a b : Option (SNode × Nat)) : Prop :=
  b = a.map (fun r => (r.1.shift k, k + r.2)) ∧
    ∀ c p, a = some (c, p) → p ≤ row₁.length ∧ Balanced d (row₁.drop p)

theorem spaces_step (h : Part k row₁ row₂ tail) (hp : pos ≤ row₁.length)
    (hb : Balanced d (row₁.drop pos)) :
    Sim (parseSpaces g row₁ pos) (parseSpaces g row₂ (k + pos)) fun a b =>
      b = (a.1.map (·.shift k), k + a.2) ∧ a.2 ≤ row₁.length ∧ Balanced d (row₁.drop a.2) := by
  unfold parseSpaces
  rw [h.symRun hp rfl]
  have hr := run_step (f := fun s => s == [' ']) hb hp
    (ordinary_of (by decide) (by decide) (by decide))
  dsimp only
  split
  · exact Sim.ok ⟨rfl, hp, hb⟩
  · rw [Nat.add_assoc]
    refine Sim.bind (new_shift _ _ _ (.leaf .operator _)) ?_
    rintro a _ rfl
    exact Sim.ok ⟨rfl, hr⟩

theorem whitespaces_shift (b : BuiltIn) (before after : Option SNode) (t : SNode) (lo hi : Nat) :
    Sim (b.whitespacesNode before t after lo hi)
      (b.whitespacesNode (before.map (·.shift k)) (t.shift k) (after.map (·.shift k)) (k + lo) (k + hi))
      fun x y => y = x.shift k := by
  cases before <;> cases after
  · exact Sim.ok rfl
  · exact new_shift _ _ _ (.children [_, _])
  · exact new_shift _ _ _ (.children [_, _])
  · exact new_shift _ _ _ (.children [_, _, _])

theorem script_step (h : Part k row₁ row₂ tail) (hp : pos ≤ row₁.length)
    (hb : Balanced d (row₁.drop pos)) (v : Variant) :
    Sim (parseScript call g v row₁ pos) (parseScript call g v row₂ (k + pos))
      (NodeStep k d row₁) := by
  unfold parseScript
  refine Sim.bind (container_step h hp hb v) ?_
  rintro a _ ⟨rfl, ha⟩
  cases a with
  | none => exact Sim.ok ⟨rfl, nofun⟩
  | some x =>
    obtain ⟨c, p1⟩ := x
    obtain ⟨hp1, hb1⟩ := ha _ _ rfl
    refine Sim.bind (new_shift _ _ _ c) ?_
    rintro t _ rfl
    refine Sim.bind (spaces_step h hp1 hb1) ?_
    rintro ⟨after, p2⟩ _ ⟨rfl, hp2, hb2⟩
    refine Sim.bind (whitespaces_shift g.builtIn none after t pos p2) ?_
    rintro t' _ rfl
    refine Sim.ok ⟨rfl, ?_⟩
    rintro _ _ ⟨⟩
    exact ⟨hp2, hb2⟩

theorem combineRanges_shift (a b : Nat × Nat) : combineRanges (k + a.1, k + a.2) (k + b.1, k + b.2) =
    (k + (combineRanges a b).1, k + (combineRanges a b).2) := by
  simp only [combineRanges, Prod.mk.injEq]
  omega

theorem range_shift (t : SNode) : (t.shift k).range = (k + t.range.1, k + t.range.2) := by
  simp only [SNode.range, shift_lo, shift_hi]

theorem postfix_shift (n : Nat) (op t : SNode) :
    Sim (buildPostfix n op t) (buildPostfix n (op.shift k) (t.shift k)) fun x y => y = x.shift k := by
  unfold buildPostfix
  simp only [range_shift, combineRanges_shift]
  exact new_shift _ _ _ (.children [_, _])

theorem prefix_shift (n : Nat) (op t : SNode) :
    Sim (buildPrefix n op t) (buildPrefix n (op.shift k) (t.shift k)) fun x y => y = x.shift k := by
  unfold buildPrefix
  simp only [range_shift, combineRanges_shift]
  exact new_shift _ _ _ (.children [_, _])

theorem infix_shift (n : Nat) (op t u : SNode) :
    Sim (buildInfix n op t u) (buildInfix n (op.shift k) (t.shift k) (u.shift k))
      fun x y => y = x.shift k := by
  unfold buildInfix
  simp only [range_shift, combineRanges_shift]
  exact new_shift _ _ _ (.children [_, _, _])

theorem missingAtom_shift (p : Nat) :
    Sim (makeMissingAtom g p) (makeMissingAtom g (k + p)) fun x y => y = x.shift k :=
  new_shift _ _ _ (.children [])

theorem missingOperator_shift (t u : SNode) :
    Sim (makeMissingOperator g t u) (makeMissingOperator g (t.shift k) (u.shift k))
      fun x y => y = x.shift k := by
  unfold makeMissingOperator BuiltIn.errorMissingOperator
  simp only [range_shift, combineRanges_shift, shift_hi]
  refine Sim.bind (missingAtom_shift (g := g) t.hi) ?_
  rintro x _ rfl
  exact new_shift _ _ _ (.children [_, _, _])

theorem scripts_step (h : Part k row₁ row₂ tail) : ∀ (n₁ n₂ : Nat) (t : SNode) (pos : Nat),
    n₁ ≤ n₂ → pos ≤ row₁.length → Balanced d (row₁.drop pos) →
    Sim (parseScripts call g row₁ n₁ t pos) (parseScripts call g row₂ n₂ (t.shift k) (k + pos))
      fun a b => b = (a.1.shift k, k + a.2) ∧ a.2 ≤ row₁.length ∧ Balanced d (row₁.drop a.2) := by
  intro n₁
  induction n₁ with
  | zero => intros; exact Sim.error
  | succ n₁ ih =>
    intro n₂ t pos hn hp hb
    obtain ⟨n₂, rfl⟩ : ∃ n, n₂ = n + 1 := ⟨n₂ - 1, by omega⟩
    unfold parseScripts
    refine Sim.bind (script_step h hp hb .sub) ?_
    rintro a _ ⟨rfl, ha⟩
    cases a with
    | some x =>
      obtain ⟨s, p1⟩ := x
      obtain ⟨hp1, hb1⟩ := ha _ _ rfl
      refine Sim.bind (postfix_shift _ s t) ?_
      rintro t' _ rfl
      exact ih n₂ t' p1 (by omega) hp1 hb1
    | none =>
      refine Sim.bind (script_step h hp hb .sup) ?_
      rintro a _ ⟨rfl, ha⟩
      cases a with
      | some x =>
        obtain ⟨s, p1⟩ := x
        obtain ⟨hp1, hb1⟩ := ha _ _ rfl
        refine Sim.bind (postfix_shift _ s t) ?_
        rintro t' _ rfl
        exact ih n₂ t' p1 (by omega) hp1 hb1
      | none => exact Sim.ok ⟨rfl, hp, hb⟩

theorem rule_step (hg : g.Tame) (hc : GoAlong call k row₁ row₂ tail) (h : Part k row₁ row₂ tail)
    (hp : pos ≤ row₁.length) (hb : Balanced d (row₁.drop pos)) {r : Rule} (ht : r.parser.Tame) :
    Sim (ruleParse call g r row₁ pos) (ruleParse call g r row₂ (k + pos)) (NodeStep k d row₁) := by
  unfold ruleParse
  refine Sim.bind (spaces_step h hp hb) ?_
  rintro ⟨before, p1⟩ _ ⟨rfl, hp1, hb1⟩
  refine Sim.bind (token_step hg hc h hp1 hb1 ht) ?_
  rintro a _ ⟨rfl, ha⟩
  cases a with
  | none => exact Sim.ok ⟨rfl, nofun⟩
  | some x =>
    obtain ⟨c, p2⟩ := x
    obtain ⟨hp2, hb2⟩ := ha _ _ rfl
    refine Sim.bind (new_shift _ _ _ c) ?_
    rintro t _ rfl
    refine Sim.bind (spaces_step h hp2 hb2) ?_
    rintro ⟨after, p3⟩ _ ⟨rfl, hp3, hb3⟩
    refine Sim.bind (whitespaces_shift g.builtIn before after t pos p3) ?_
    rintro t' _ rfl
    split
    · refine Sim.bind (scripts_step h _ _ t' p3 (by rw [h.length]; omega) hp3 hb3) ?_
      rintro ⟨u, p4⟩ _ ⟨rfl, hp4, hb4⟩
      refine Sim.ok ⟨rfl, ?_⟩
      rintro _ _ ⟨⟩
      exact ⟨hp4, hb4⟩
    · refine Sim.ok ⟨rfl, ?_⟩
      rintro _ _ ⟨⟩
      exact ⟨hp3, hb3⟩

theorem iter_step (hg : g.Tame) (hc : GoAlong call k row₁ row₂ tail) (h : Part k row₁ row₂ tail)
    (hp : pos ≤ row₁.length) (hb : Balanced d (row₁.drop pos)) :
    ∀ {rs : List Rule}, (∀ r ∈ rs, r.parser.Tame) →
    Sim (parseIter call g row₁ pos rs) (parseIter call g row₂ (k + pos) rs) fun a b =>
      b = a.map (fun r => (r.1.shift k, r.2.1, k + r.2.2)) ∧
        ∀ t r p, a = some (t, r, p) → p ≤ row₁.length ∧ Balanced d (row₁.drop p)
  | [], _ => Sim.ok ⟨rfl, nofun⟩
  | r :: rs, ht => by
    unfold parseIter
    refine Sim.bind (rule_step hg hc h hp hb (ht r (List.mem_cons_self ..))) ?_
    rintro a _ ⟨rfl, ha⟩
    cases a with
    | none => exact iter_step hg hc h hp hb fun r hr => ht r (List.mem_cons_of_mem _ hr)
    | some x =>
      obtain ⟨t, p⟩ := x
      refine Sim.ok ⟨rfl, ?_⟩
      rintro _ _ _ ⟨⟩
      exact ha _ _ rfl

theorem can_step (hg : g.Tame) (hc : GoAlong call k row₁ row₂ tail) (h : Part k row₁ row₂ tail)
    (hp : pos ≤ row₁.length) (hb : Balanced d (row₁.drop pos)) {rs : List Rule}
    (ht : ∀ r ∈ rs, r.parser.Tame) :
    Sim (canParse call g row₁ pos rs) (canParse call g row₂ (k + pos) rs) fun a b =>
      b = a ∧ (a = false → parseIter call g row₁ pos rs = .ok none) := by
  unfold canParse
  intro c hcan
  obtain ⟨a, ha, hcan⟩ := M.bind_eq_ok.1 hcan
  obtain ⟨_, hb', rfl, -⟩ := iter_step hg hc h hp hb ht a ha
  rw [hb', ha]
  cases a with
  | none => cases hcan; exact ⟨_, rfl, rfl, fun _ => rfl⟩
  | some x => cases hcan; exact ⟨_, rfl, rfl, nofun⟩

theorem either_step (hg : g.Tame) (hc : GoAlong call k row₁ row₂ tail) (h : Part k row₁ row₂ tail)
    (hp : pos ≤ row₁.length) (hb : Balanced d (row₁.drop pos)) {rs rs' : List Rule}
    (ht : ∀ r ∈ rs, r.parser.Tame) (ht' : ∀ r ∈ rs', r.parser.Tame) :
    Sim (canParseEither call g row₁ pos rs rs') (canParseEither call g row₂ (k + pos) rs rs')
      fun a b => b = a ∧ (a = false → parseIter call g row₁ pos rs' = .ok none) := by
  unfold canParseEither
  refine Sim.bind (can_step hg hc h hp hb ht) ?_
  rintro _ a ⟨rfl, -⟩
  cases a with
  | true => exact Sim.ok ⟨rfl, nofun⟩
  | false => exact can_step hg hc h hp hb ht'

/-! ## Ends -/

theorem Balanced.depth (hb : Balanced d (row₁.drop row₁.length)) : d = 0 := by
  rw [List.drop_length] at hb
  cases hb
  rfl

theorem Balanced.lt {d pos : Nat} {row : Row} (hp : pos ≤ row.length)
    (hb : Balanced (d + 1) (row.drop pos)) : pos < row.length := by
  refine Nat.lt_of_le_of_ne hp fun he => ?_
  rw [he, List.drop_length] at hb
  cases hb

theorem atEnd_step (h : Part k row₁ row₂ tail) (hp : pos ≤ row₁.length)
    (hb : Balanced d (row₁.drop pos)) {e₁ e₂ : Ending} (he : Endings tail d e₁ e₂) :
    isAtEnd row₂ (k + pos) e₂ = isAtEnd row₁ pos e₁ := by
  cases he with
  | inner =>
    have hlt := hb.lt hp
    have h2 := h.length
    simp only [isAtEnd, h.selectSym hp (.inl hlt), Option.isSome_map]
    have e1 : atInputEnd row₁ pos = false := by simp [atInputEnd]; omega
    have e2 : atInputEnd row₂ (k + pos) = false := by simp [atInputEnd]; omega
    rw [e1, e2]
  | eof ht =>
    subst ht
    have h2 := h.length
    simp only [isAtEnd, atInputEnd, h2, List.length_nil, decide_eq_decide]
    omega
  | closes ht =>
    subst ht
    have h2 := h.length
    rw [List.length_cons] at h2
    have e2 : atInputEnd row₂ (k + pos) = false := by simp [atInputEnd]; omega
    simp only [isAtEnd, e2, Bool.false_or]
    by_cases hlt : pos < row₁.length
    · have e1 : atInputEnd row₁ pos = false := by simp [atInputEnd]; omega
      rw [e1, h.selectSym hp (.inl hlt), Option.isSome_map]
      rcases selectSym_cases (f := fun s => s == [')']) (row := row₁) (pos := pos) with
        hs | ⟨s, rest, hd, hf, hs, hlt, hd'⟩
      · rw [hs]; rfl
      · obtain rfl : s = [')'] := by simpa using hf
        rw [hd] at hb
        obtain ⟨d', hd', -⟩ := hb.close
        cases hd'
    · obtain rfl : pos = row₁.length := by omega
      simp [atInputEnd, selectSym, h.get_end]

theorem final_of_atEnd {e₁ e₂ : Ending} (he : Endings tail d e₁ e₂) (hp : pos ≤ row₁.length)
    (hb : Balanced d (row₁.drop pos)) (h : isAtEnd row₁ pos e₁ = true) : Final row₁ d pos := by
  cases he with
  | inner =>
    have hlt := hb.lt hp
    have e1 : atInputEnd row₁ pos = false := by simp [atInputEnd]; omega
    simp only [isAtEnd, e1, Bool.false_or] at h
    rcases selectSym_cases (f := fun s => s == [')']) (row := row₁) (pos := pos) with
      hs | ⟨s, rest, hd, hf, hs, hlt, hd'⟩
    · rw [hs] at h; cases h
    · obtain rfl : s = [')'] := by simpa using hf
      exact (drop_cons hd).1
  | eof _ =>
    simp only [isAtEnd, atInputEnd, decide_eq_true_eq] at h
    exact Nat.le_antisymm hp h
  | closes _ =>
    simp only [isAtEnd, atInputEnd, decide_eq_true_eq] at h
    exact Nat.le_antisymm hp h

theorem token_end {row : Row} {tp : TokenParser} (ht : tp.Tame) :
    tokenParse call g tp row row.length = .ok none := by
  have hget : row[row.length]? = none := by simp
  have hsel : ∀ f, selectSym f row row.length = none := fun f => by simp [selectSym]
  cases tp with
  | symbols ss ty =>
    cases ss with
    | nil => exact absurd rfl ht.1
    | cons s ss => simp [tokenParse, justSymbols]
  | brackets n o c => simp [tokenParse, parseBrackets, hsel]
  | emptyBrackets n o c => simp [tokenParse, parseEmptyBrackets, hsel]
  | container v => simp [tokenParse, parseContainer]
  | «variable» => simp [tokenParse, parseVariable, hsel]
  | number => simp [tokenParse, parseNumber, numberDigits, symRun]
  | string => simp [tokenParse, parseString, hsel]

theorem iter_end {row : Row} {rs : List Rule} (ht : ∀ r ∈ rs, r.parser.Tame) :
    parseIter call g row row.length rs = .ok none := by
  refine parseIter_none.2 fun r hr => ?_
  have hsp : parseSpaces g row row.length = .ok (none, row.length) := by
    simp [parseSpaces, symRun]
  simp only [ruleParse, hsp, M.ok_bind, token_end (ht r hr)]

theorem ofRole_tame (hg : g.Tame) :
    (∀ r ∈ g.prefixes, r.parser.Tame) ∧ (∀ r ∈ g.atoms, r.parser.Tame) ∧
      (∀ r ∈ g.infixes, r.parser.Tame) ∧ ∀ r ∈ g.postfixes, r.parser.Tame :=
  ⟨hg.rules .prefix, hg.rules .atom, hg.rules .infix, hg.rules .postfix⟩

/-- No rule reads the closing bracket behind the row. -/
theorem tail_none (hg : g.Tame) (hc : GoAlong call k row₁ row₂ tail) (h : Part k row₁ row₂ tail)
    {rs : List Rule} (ht : ∀ r ∈ rs, r.parser.Tame) :
    parseIter call g row₂ (k + row₁.length) rs = .ok none := by
  have hb : Balanced 0 (row₁.drop row₁.length) := by rw [List.drop_length]; exact .nil
  obtain ⟨b, h1, rfl, -⟩ := iter_step hg hc h (Nat.le_refl _) hb ht none (iter_end ht)
  exact h1

/-! ## Unknown symbols -/

theorem spaces_zero {s : Str} {row rest : Row} {p : Nat} (h : row.drop p = .symbol s :: rest)
    (hs : s ≠ [' ']) : leadingSpaces (row.drop p) = 0 := by
  rw [h]
  simp [leadingSpaces, hs]

/-- A symbol at which no operand can be read is not a bracket or quote, except for the closing one. -/
theorem unknown_ordinary (hg : g.Tame) (hc : GoAlong call k row₁ row₂ tail) {s : Str} {rest : Row}
    (hd : row₁.drop pos = .symbol s :: rest) (hb : Balanced d (row₁.drop pos))
    (hn : parseIter call g row₁ pos g.atoms = .ok none) {e₁ e₂ : Ending}
    (he : Endings tail d e₁ e₂) (hend : isAtEnd row₁ pos e₁ = false) : Ordinary s := by
  obtain ⟨hget, hd'⟩ := drop_cons hd
  obtain ⟨hlt, -⟩ := List.getElem?_eq_some_iff.1 hget
  refine ⟨?_, ?_, ?_⟩ <;> rintro rfl
  · obtain ⟨r, hr, n, hrp⟩ := hg.round
    obtain ⟨before, -, h2⟩ := ruleParse_none_steps (parseIter_none.1 hn r hr)
    rw [spaces_zero hd (by decide), Nat.add_zero, hrp] at h2
    have hsel : selectSym (fun s => s == ['(']) row₁ pos = some (['('], pos + 1) := by
      simp [selectSym, hget]
    simp only [tokenParse, parseBrackets, hsel] at h2
    obtain ⟨⟨child, p2⟩, hcall, h2⟩ := M.bind_eq_ok.1 h2
    rw [hd] at hb
    have hb' : Balanced (d + 1) (row₁.drop (pos + 1)) := hd' ▸ hb.open
    obtain ⟨_, -, -, -, -, hst, hex⟩ := hc (pos + 1) (d + 1) (0, .weak) _ _ hlt hb' .inner _ hcall
    have hfin : row₁[p2]? = some (.symbol [')']) := by
      cases child with
      | stop t => exact hst t rfl
      | expression t => exact absurd rfl (hex t rfl)
    have hs2 : selectSym (fun s => s == [')']) row₁ p2 = some ([')'], p2 + 1) := by
      simp [selectSym, hfin]
    simp only [hs2, new_leaf, M.ok_bind] at h2
    cases h2
  · rw [hd] at hb
    obtain ⟨d', rfl, -⟩ := hb.close
    cases he
    simp [isAtEnd, selectSym, hget] at hend
  · obtain ⟨r, hr, hrp⟩ := hg.string
    obtain ⟨before, -, h2⟩ := ruleParse_none_steps (parseIter_none.1 hn r hr)
    rw [spaces_zero hd (by decide), Nat.add_zero, hrp] at h2
    rw [hd] at hb
    obtain ⟨l, r', hl, rfl, hb'⟩ := hb.quote
    have hsel : selectSym (fun s => s == ['"']) row₁ pos = some (['"'], pos + 1) := by
      simp [selectSym, hget]
    have hd3 : row₁.drop (pos + 1 + l.length) = .symbol ['"'] :: r' := by
      rw [← List.drop_drop, hd', List.drop_left' (List.length_map _)]
    have hs2 : selectSym (fun s => s == ['"']) row₁ (pos + 1 + l.length) =
        some (['"'], pos + 1 + l.length + 1) := by simp [selectSym, (drop_cons hd3).1]
    simp only [tokenParse, parseString, hsel, Option.bind_eq_bind, Option.bind_some, hd',
      stringBody_quoted hl, hs2] at h2
    cases h2

theorem unknownAtom_step (hg : g.Tame) (hc : GoAlong call k row₁ row₂ tail)
    (h : Part k row₁ row₂ tail) (hb : Balanced d (row₁.drop pos)) (hp : pos ≤ row₁.length)
    (hn : parseIter call g row₁ pos g.atoms = .ok none) {e₁ e₂ : Ending}
    (he : Endings tail d e₁ e₂) (hend : isAtEnd row₁ pos e₁ = false) :
    Sim (makeUnknownAtom g row₁ pos) (makeUnknownAtom g row₂ (k + pos)) fun a b =>
      b = a.shift k ∧ pos + 1 ≤ row₁.length ∧ Balanced d (row₁.drop (pos + 1)) := by
  have hlt : pos < row₁.length := by
    refine Nat.lt_of_le_of_ne hp fun heq => ?_
    subst heq
    cases he <;> simp [isAtEnd, atInputEnd] at hend
  unfold makeUnknownAtom
  rw [h.get hlt, List.getElem?_eq_getElem hlt]
  simp only [munwrap, M.ok_bind]
  have hd := List.drop_eq_getElem_cons hlt
  cases hn' : row₁[pos] with
  | container _ _ _ => exact Sim.error
  | symbol s =>
    rw [hn'] at hd
    have ho := unknown_ordinary hg hc hd hb hn he hend
    rw [hd] at hb
    refine (new_shift (k := k) _ _ _ (.leaf .symbol [s])).imp ?_
    rintro a _ rfl
    exact ⟨rfl, hlt, hb.of_ordinary ho⟩

theorem stops_step (hg : g.Tame) (hc : GoAlong call k row₁ row₂ tail) (h : Part k row₁ row₂ tail)
    (hp : pos ≤ row₁.length) (hb : Balanced d (row₁.drop pos)) {e₁ e₂ : Ending}
    (he : Endings tail d e₁ e₂) :
    Sim (unknownStops call g row₁ pos e₁) (unknownStops call g row₂ (k + pos) e₂) fun a b =>
      b = a ∧ (a = false → isAtEnd row₁ pos e₁ = false ∧
        parseIter call g row₁ pos g.atoms = .ok none) := by
  obtain ⟨t1, t2, t3, t4⟩ := ofRole_tame hg
  unfold unknownStops
  rw [atEnd_step h hp hb he]
  split
  · exact Sim.ok ⟨rfl, nofun⟩
  rename_i hend
  have hend := Bool.eq_false_iff.2 hend
  refine Sim.bind (can_step hg hc h hp hb t1) ?_
  rintro _ a ⟨rfl, -⟩
  cases a with
  | true => exact Sim.ok ⟨rfl, nofun⟩
  | false =>
    refine Sim.bind (can_step hg hc h hp hb t2) ?_
    rintro _ a ⟨rfl, hat⟩
    cases a with
    | true => exact Sim.ok ⟨rfl, nofun⟩
    | false =>
      have hat := hat rfl
      refine Sim.bind (can_step hg hc h hp hb t3) ?_
      rintro _ a ⟨rfl, -⟩
      cases a with
      | true => exact Sim.ok ⟨rfl, nofun⟩
      | false =>
        refine (can_step hg hc h hp hb t4).imp ?_
        rintro _ a ⟨rfl, -⟩
        exact ⟨rfl, fun _ => ⟨hend, hat⟩⟩

theorem unknownLoop_step (hg : g.Tame) (hc : GoAlong call k row₁ row₂ tail)
    (h : Part k row₁ row₂ tail) {e₁ e₂ : Ending} (he : Endings tail d e₁ e₂) :
    ∀ (n₁ n₂ : Nat) (t : SNode) (pos : Nat), n₁ ≤ n₂ → pos ≤ row₁.length →
    Balanced d (row₁.drop pos) →
    Sim (unknownLoop call g row₁ e₁ n₁ t pos) (unknownLoop call g row₂ e₂ n₂ (t.shift k) (k + pos))
      fun a b => b = (a.1.shift k, k + a.2) ∧ a.2 ≤ row₁.length ∧ Balanced d (row₁.drop a.2) := by
  intro n₁
  induction n₁ with
  | zero => intros; exact Sim.error
  | succ n₁ ih =>
    intro n₂ t pos hn hp hb
    obtain ⟨n₂, rfl⟩ : ∃ n, n₂ = n + 1 := ⟨n₂ - 1, by omega⟩
    unfold unknownLoop
    refine Sim.bind (stops_step hg hc h hp hb he) ?_
    rintro _ a ⟨rfl, ha⟩
    cases a with
    | true => exact Sim.ok ⟨rfl, hp, hb⟩
    | false =>
      obtain ⟨hend, hat⟩ := ha rfl
      refine Sim.bind (unknownAtom_step hg hc h hb hp hat he hend) ?_
      rintro u _ ⟨rfl, hp1, hb1⟩
      refine Sim.bind (missingOperator_shift t u) ?_
      rintro v _ rfl
      exact ih n₂ v (pos + 1) (by omega) hp1 hb1

theorem parseUnknown_step (hg : g.Tame) (hc : GoAlong call k row₁ row₂ tail)
    (h : Part k row₁ row₂ tail) {e₁ e₂ : Ending} (he : Endings tail d e₁ e₂)
    (hp : pos ≤ row₁.length) (hb : Balanced d (row₁.drop pos))
    (hn : parseIter call g row₁ pos g.atoms = .ok none) (hend : isAtEnd row₁ pos e₁ = false) :
    Sim (parseUnknown call g row₁ e₁ pos) (parseUnknown call g row₂ e₂ (k + pos))
      fun a b => b = (a.1.shift k, k + a.2) ∧ a.2 ≤ row₁.length ∧ Balanced d (row₁.drop a.2) := by
  unfold parseUnknown
  refine Sim.bind (unknownAtom_step hg hc h hb hp hn he hend) ?_
  rintro u _ ⟨rfl, hp1, hb1⟩
  exact unknownLoop_step hg hc h he _ _ u (pos + 1) (by rw [h.length]; omega) hp1 hb1

/-! ## Expressions -/

/-- see `SNode.shift` -/
def Start.shift (k : Nat) : Start → Start
  | .left t => .left (t.shift k)
  | .finished t => .finished (t.shift k)

theorem start_step (hg : g.Tame) (hc : GoAlong call k row₁ row₂ tail) (h : Part k row₁ row₂ tail)
    {e₁ e₂ : Ending} (he : Endings tail d e₁ e₂) (hp : pos ≤ row₁.length)
    (hb : Balanced d (row₁.drop pos)) :
    Sim (prattStart call g row₁ e₁ pos) (prattStart call g row₂ e₂ (k + pos)) fun a b =>
      b = (a.1.shift k, k + a.2) ∧ a.2 ≤ row₁.length ∧ Balanced d (row₁.drop a.2) ∧
        ∀ t, a.1 = .finished t → Final row₁ d a.2 := by
  obtain ⟨t1, t2, t3, t4⟩ := ofRole_tame hg
  have hae := atEnd_step h hp hb he
  unfold prattStart
  by_cases hend : pos = row₁.length
  · subst hend
    obtain rfl := hb.depth
    have e1 : atInputEnd row₁ row₁.length = true := by simp [atInputEnd]
    simp only [e1, if_true]
    have hatEnd : isAtEnd row₁ row₁.length e₁ = true := by cases he <;> simp [isAtEnd, atInputEnd]
    have hmiss : Sim (do
        let t ← makeMissingAtom g row₁.length
        .ok (Start.finished t, row₁.length)) (do
        let t ← makeMissingAtom g (k + row₁.length)
        .ok (Start.finished t, k + row₁.length)) fun a b =>
      b = (a.1.shift k, k + a.2) ∧ a.2 ≤ row₁.length ∧ Balanced 0 (row₁.drop a.2) ∧
        ∀ t, a.1 = .finished t → Final row₁ 0 a.2 := by
      refine Sim.bind (missingAtom_shift row₁.length) ?_
      rintro t _ rfl
      exact Sim.ok ⟨rfl, Nat.le_refl _, hb, fun _ _ => rfl⟩
    split
    · exact hmiss
    · simp only [canParseEither, canParse, tail_none hg hc h t1, tail_none hg hc h t2,
        tail_none hg hc h t3, tail_none hg hc h t4, M.ok_bind, Bool.false_eq_true, if_false, hae, hatEnd,
        if_true]
      exact hmiss
  · have hlt : pos < row₁.length := by omega
    have h2 := h.length
    have e1 : atInputEnd row₁ pos = false := by simp [atInputEnd]; omega
    have e2 : atInputEnd row₂ (k + pos) = false := by simp [atInputEnd]; omega
    simp only [e1, e2, Bool.false_eq_true, if_false]
    refine Sim.bind (iter_step hg hc h hp hb t1) ?_
    rintro a _ ⟨rfl, ha⟩
    cases a with
    | some x =>
      obtain ⟨op, r, p1⟩ := x
      obtain ⟨hp1, hb1⟩ := ha _ _ _ rfl
      refine Sim.bind (hc p1 d _ _ _ hp1 hb1 he) ?_
      rintro ⟨right, p2⟩ _ ⟨rfl, hp2, hb2, hst, -⟩
      dsimp only
      rw [PResult.shift_node]
      refine Sim.bind (prefix_shift r.name op right.node) ?_
      rintro t _ rfl
      cases right with
      | expression u => exact Sim.ok ⟨rfl, hp2, hb2, nofun⟩
      | stop u => exact Sim.ok ⟨rfl, hp2, hb2, fun _ _ => hst u rfl⟩
    | none =>
      refine Sim.bind_of (iter_step hg hc h hp hb t2) ?_
      rintro o _ ho ⟨rfl, hat⟩
      cases o with
      | some x =>
        obtain ⟨t, r, p1⟩ := x
        obtain ⟨hp1, hb1⟩ := hat _ _ _ rfl
        exact Sim.ok ⟨rfl, hp1, hb1, nofun⟩
      | none =>
        refine Sim.bind (either_step hg hc h hp hb t3 t4) ?_
        rintro _ a ⟨rfl, -⟩
        cases a with
        | true =>
          refine Sim.bind (missingAtom_shift pos) ?_
          rintro t _ rfl
          exact Sim.ok ⟨rfl, hp, hb, nofun⟩
        | false =>
          simp only [Bool.false_eq_true, if_false, hae]
          split
          · rename_i hend'
            refine Sim.bind (missingAtom_shift pos) ?_
            rintro t _ rfl
            exact Sim.ok ⟨rfl, hp, hb, fun _ _ => final_of_atEnd he hp hb hend'⟩
          · rename_i hend'
            refine Sim.bind (parseUnknown_step hg hc h he hp hb ho (Bool.eq_false_iff.2 hend')) ?_
            rintro ⟨t, p1⟩ _ ⟨rfl, hp1, hb1⟩
            exact Sim.ok ⟨rfl, hp1, hb1, nofun⟩

theorem not_lt_zero {a min : Power} (h : a.lt min = true) : min ≠ (0, .weak) := by
  rintro rfl
  simp [Power.lt] at h

/-- What `GoAlong` says about a result. -/
def ResultStep (k d : Nat) (row₁ : Row) (min : Power) (a b : PResult × Nat) : Prop :=
  b = (a.1.shift k, k + a.2) ∧ a.2 ≤ row₁.length ∧ Balanced d (row₁.drop a.2) ∧
    (∀ t, a.1 = .stop t → Final row₁ d a.2) ∧ ∀ t, a.1 = .expression t → min ≠ (0, .weak)

theorem loop_step (hg : g.Tame) (hc : GoAlong call k row₁ row₂ tail) (h : Part k row₁ row₂ tail)
    {e₁ e₂ : Ending} (he : Endings tail d e₁ e₂) (min : Power) :
    ∀ (n₁ n₂ : Nat) (t : SNode) (pos : Nat), n₁ ≤ n₂ → pos ≤ row₁.length →
    Balanced d (row₁.drop pos) →
    Sim (prattLoop call g row₁ min e₁ n₁ t pos)
      (prattLoop call g row₂ min e₂ n₂ (t.shift k) (k + pos)) (ResultStep k d row₁ min) := by
  obtain ⟨t1, t2, t3, t4⟩ := ofRole_tame hg
  intro n₁
  induction n₁ with
  | zero => intros; exact Sim.error
  | succ n₁ ih =>
    intro n₂ t pos hn hp hb
    obtain ⟨n₂, rfl⟩ : ∃ n, n₂ = n + 1 := ⟨n₂ - 1, by omega⟩
    have hae := atEnd_step h hp hb he
    unfold prattLoop
    by_cases hend : pos = row₁.length
    · subst hend
      obtain rfl := hb.depth
      have e1 : atInputEnd row₁ row₁.length = true := by simp [atInputEnd]
      have hatEnd : isAtEnd row₁ row₁.length e₁ = true := by
        cases he <;> simp [isAtEnd, atInputEnd]
      have hR : ResultStep k 0 row₁ min (.stop t, row₁.length) (.stop (t.shift k), k + row₁.length) :=
        ⟨rfl, Nat.le_refl _, hb, fun _ _ => rfl, nofun⟩
      simp only [e1, if_true]
      split
      · exact Sim.ok hR
      · simp only [canParseEither, canParse, tail_none hg hc h t1, tail_none hg hc h t2,
          tail_none hg hc h t3, tail_none hg hc h t4, M.ok_bind, Bool.false_eq_true, if_false, hae,
          hatEnd, if_true]
        exact Sim.ok hR
    · have hlt : pos < row₁.length := by omega
      have h2 := h.length
      have e1 : atInputEnd row₁ pos = false := by simp [atInputEnd]; omega
      have e2 : atInputEnd row₂ (k + pos) = false := by simp [atInputEnd]; omega
      simp only [e1, e2, Bool.false_eq_true, if_false]
      refine Sim.bind (iter_step hg hc h hp hb t3) ?_
      rintro a _ ⟨rfl, ha⟩
      cases a with
      | some x =>
        obtain ⟨op, r, p1⟩ := x
        obtain ⟨hp1, hb1⟩ := ha _ _ _ rfl
        dsimp only [Option.map_some]
        split
        · rename_i hmin
          exact Sim.ok ⟨rfl, hp, hb, nofun, fun _ _ => not_lt_zero hmin⟩
        · refine Sim.bind (hc p1 d _ _ _ hp1 hb1 he) ?_
          rintro ⟨right, p2⟩ _ ⟨rfl, hp2, hb2, hst, -⟩
          dsimp only
          rw [PResult.shift_node]
          refine Sim.bind (infix_shift r.name op t right.node) ?_
          rintro u _ rfl
          cases right with
          | expression v => exact ih n₂ u p2 (by omega) hp2 hb2
          | stop v => exact Sim.ok ⟨rfl, hp2, hb2, fun _ _ => hst v rfl, nofun⟩
      | none =>
        refine Sim.bind (iter_step hg hc h hp hb t4) ?_
        rintro a _ ⟨rfl, ha⟩
        cases a with
        | some x =>
          obtain ⟨op, r, p1⟩ := x
          obtain ⟨hp1, hb1⟩ := ha _ _ _ rfl
          dsimp only [Option.map_some]
          split
          · rename_i hmin
            exact Sim.ok ⟨rfl, hp, hb, nofun, fun _ _ => not_lt_zero hmin⟩
          · refine Sim.bind (postfix_shift r.name op t) ?_
            rintro u _ rfl
            exact ih n₂ u p1 (by omega) hp1 hb1
        | none =>
          refine Sim.bind (either_step hg hc h hp hb t1 t2) ?_
          rintro _ a ⟨rfl, ha⟩
          cases a with
          | true =>
            simp only [if_true]
            split
            · rename_i hmin
              exact Sim.ok ⟨rfl, hp, hb, nofun, fun _ _ => not_lt_zero hmin⟩
            · refine Sim.bind (hc pos d _ _ _ hp hb he) ?_
              rintro ⟨right, p2⟩ _ ⟨rfl, hp2, hb2, hst, -⟩
              dsimp only
              rw [PResult.shift_node]
              refine Sim.bind (missingOperator_shift t right.node) ?_
              rintro u _ rfl
              cases right with
              | expression v => exact ih n₂ u p2 (by omega) hp2 hb2
              | stop v => exact Sim.ok ⟨rfl, hp2, hb2, fun _ _ => hst v rfl, nofun⟩
          | false =>
            simp only [Bool.false_eq_true, if_false, hae]
            split
            · rename_i hend'
              exact Sim.ok ⟨rfl, hp, hb, fun _ _ => final_of_atEnd he hp hb hend', nofun⟩
            · rename_i hend'
              refine Sim.bind (parseUnknown_step hg hc h he hp hb (ha rfl)
                (Bool.eq_false_iff.2 hend')) ?_
              rintro ⟨u, p1⟩ _ ⟨rfl, hp1, hb1⟩
              refine Sim.bind (missingOperator_shift t u) ?_
              rintro v _ rfl
              exact ih n₂ v p1 (by omega) hp1 hb1

theorem body_step (hg : g.Tame) (hc : GoAlong call k row₁ row₂ tail) (h : Part k row₁ row₂ tail) :
    GoAlong (prattBody call g) k row₁ row₂ tail := by
  intro pos d min e₁ e₂ hp hb he
  unfold prattBody
  refine Sim.bind (start_step hg hc h he hp hb) ?_
  rintro ⟨s, p⟩ _ ⟨rfl, hp1, hb1, hfin⟩
  cases s with
  | finished t => exact Sim.ok ⟨rfl, hp1, hb1, fun _ _ => hfin t rfl, nofun⟩
  | left t => exact loop_step hg hc h he min _ _ t p (by rw [h.length]; omega) hp1 hb1

theorem pratt_step (hg : g.Tame) (h : Part k row₁ row₂ tail) : ∀ F,
    GoAlong (pratt g F) k row₁ row₂ tail
  | 0 => fun _ _ _ _ _ _ _ _ => Sim.error
  | F + 1 => body_step hg (pratt_step hg h F) h

end Aftermath

import Verif.Proof.BracketsWithin
import Verif.Proof.ParseMono
import Verif.Proof.NotationRules
import Verif.Spec.BracketsSwap

/-! # Two rows that differ in one pair of brackets are read in the same way -/

namespace Aftermath

/-- Two rows that differ in what is in a pair of brackets. The brackets end at `k₁` and at `k₂`. -/
structure TwoRows (pre r₁ r₂ post row₁ row₂ : Row) (k₁ k₂ : Nat) : Prop where
  place₁ : Place pre r₁ post row₁
  place₂ : Place pre r₂ post row₂
  k₁_eq : k₁ = pre.length + r₁.length + 2
  k₂_eq : k₂ = pre.length + r₂.length + 2

/-- The same place in both rows. -/
inductive Places (pre : Row) (k₁ k₂ p₁ p₂ : Nat) : Prop
  | before (e : p₂ = p₁) (h : Before pre p₁)
  | after (j : Nat) (e₁ : p₁ = k₁ + j) (e₂ : p₂ = k₂ + j)

/-- From one place to another one, on the same side of the brackets. -/
inductive Zone (pre : Row) (k₁ k₂ s₁ s₂ p₁ p₂ : Nat) : Prop
  | before (es : s₂ = s₁) (ep : p₂ = p₁) (hs : Before pre s₁) (hp : Before pre p₁) (le : s₁ ≤ p₁)
  | after (i j : Nat) (es₁ : s₁ = k₁ + i) (es₂ : s₂ = k₂ + i) (ep₁ : p₁ = k₁ + j) (ep₂ : p₂ = k₂ + j)
    (le : i ≤ j)

variable {pre r₁ r₂ post row₁ row₂ : Row} {k₁ k₂ s₁ s₂ m₁ m₂ p₁ p₂ : Nat}

theorem Zone.refl (h : Places pre k₁ k₂ p₁ p₂) : Zone pre k₁ k₂ p₁ p₂ p₁ p₂ := by
  cases h with
  | before e h => exact .before e e h h (Nat.le_refl _)
  | after j e₁ e₂ => exact .after j j e₁ e₂ e₁ e₂ (Nat.le_refl _)

theorem Zone.places (h : Zone pre k₁ k₂ s₁ s₂ p₁ p₂) : Places pre k₁ k₂ p₁ p₂ := by
  cases h with
  | before es ep hs hp le => exact .before ep hp
  | after i j es₁ es₂ ep₁ ep₂ le => exact .after j ep₁ ep₂

theorem Zone.trans (hk : pre.length < k₁) (h : Zone pre k₁ k₂ s₁ s₂ m₁ m₂)
    (h' : Zone pre k₁ k₂ m₁ m₂ p₁ p₂) : Zone pre k₁ k₂ s₁ s₂ p₁ p₂ := by
  cases h with
  | before es ep hs hp le =>
    cases h' with
    | before es' ep' hs' hp' le' => exact .before es ep' hs hp' (Nat.le_trans le le')
    | after i j es₁ es₂ ep₁ ep₂ le' =>
      have := hp.1
      omega
  | after i j es₁ es₂ ep₁ ep₂ le =>
    cases h' with
    | before es' ep' hs' hp' le' =>
      have := hs'.1
      omega
    | after i' j' es₁' es₂' ep₁' ep₂' le' => exact .after i j' es₁ es₂ ep₁' ep₂' (by omega)

namespace TwoRows

variable (T : TwoRows pre r₁ r₂ post row₁ row₂ k₁ k₂)
include T

theorem lt₁ : pre.length < k₁ := by have := T.k₁_eq; omega

theorem lt₂ : pre.length < k₂ := by have := T.k₂_eq; omega

omit T in
theorem drop_behind {pre r post row : Row} {k : Nat} (h : Place pre r post row)
    (hk : k = pre.length + r.length + 2) (j : Nat) : row.drop (k + j) = post.drop j := by
  have : row = (pre ++ .symbol ['('] :: (r ++ [.symbol [')']])) ++ post := by
    rw [h.row_eq]
    simp
  rw [← List.drop_drop, this, List.drop_left' (by simp; omega)]

omit T in
theorem length_behind {pre r post row : Row} {k : Nat} (h : Place pre r post row)
    (hk : k = pre.length + r.length + 2) : row.length = k + post.length := by
  rw [h.row_eq]
  simp
  omega

theorem get (h : Places pre k₁ k₂ p₁ p₂) : row₂[p₂]? = row₁[p₁]? := by
  cases h with
  | before e h =>
    subst e
    by_cases hlt : p₂ < pre.length
    · rw [T.place₁.get hlt, T.place₂.get hlt]
    · obtain rfl : p₂ = pre.length := by have := h.1; omega
      rw [T.place₁.get_open, T.place₂.get_open]
  | after j e₁ e₂ =>
    subst e₁ e₂
    rw [← List.head?_drop, ← List.head?_drop, drop_behind T.place₁ T.k₁_eq,
      drop_behind T.place₂ T.k₂_eq]

theorem atInputEnd (h : Places pre k₁ k₂ p₁ p₂) : atInputEnd row₂ p₂ = atInputEnd row₁ p₁ := by
  have h1 := length_behind T.place₁ T.k₁_eq
  have h2 := length_behind T.place₂ T.k₂_eq
  cases h with
  | before e h =>
    have := h.lt_length T.place₁
    have := h.lt_length T.place₂
    simp only [Aftermath.atInputEnd, decide_eq_decide]
    omega
  | after j e₁ e₂ =>
    simp only [Aftermath.atInputEnd, decide_eq_decide]
    omega

theorem select (h : Places pre k₁ k₂ p₁ p₂) (f : Str → Bool) :
    selectSym f row₂ p₂ = (selectSym f row₁ p₁).map fun r => (r.1, p₂ + 1) := by
  simp only [selectSym, T.get h]
  cases row₁[p₁]? with
  | none => rfl
  | some n =>
    cases n with
    | container _ _ _ => rfl
    | symbol s => by_cases hs : f s <;> simp [hs]

theorem isAtEnd (h : Places pre k₁ k₂ p₁ p₂) (e : Ending) :
    isAtEnd row₂ p₂ e = isAtEnd row₁ p₁ e := by
  cases e with
  | eof => exact T.atInputEnd h
  | sym s => simp only [Aftermath.isAtEnd, T.atInputEnd h, T.select h, Option.isSome_map]

theorem next (h : Places pre k₁ k₂ p₁ p₂) {s : Str} (hs : Ordinary s)
    (hg : row₁[p₁]? = some (.symbol s)) : Zone pre k₁ k₂ p₁ p₂ (p₁ + 1) (p₂ + 1) := by
  cases h with
  | before e h => exact .before e (by omega) h (h.next hs T.place₁ hg) (by omega)
  | after j e₁ e₂ => exact .after j (j + 1) e₁ e₂ (by omega) (by omega) (by omega)

theorem node (h : Places pre k₁ k₂ p₁ p₂) {v : Variant} {cells : List Row} {w : Nat}
    (hg : row₁[p₁]? = some (.container v cells w)) : Zone pre k₁ k₂ p₁ p₂ (p₁ + 1) (p₂ + 1) := by
  cases h with
  | before e h => exact .before e (by omega) h (h.node T.place₁ hg) (by omega)
  | after j e₁ e₂ => exact .after j (j + 1) e₁ e₂ (by omega) (by omega) (by omega)

theorem closes (h : Places pre k₁ k₂ p₁ p₂) (hg : row₁[p₁]? = some (.symbol [')'])) :
    Zone pre k₁ k₂ p₁ p₂ (p₁ + 1) (p₂ + 1) := by
  cases h with
  | before e h => exact .before e (by omega) h (h.closes T.place₁ hg) (by omega)
  | after j e₁ e₂ => exact .after j (j + 1) e₁ e₂ (by omega) (by omega) (by omega)

theorem opens (h : Places pre k₁ k₂ p₁ p₂) (hne : p₁ ≠ pre.length)
    (hg : row₁[p₁]? = some (.symbol ['('])) : Zone pre k₁ k₂ p₁ p₂ (p₁ + 1) (p₂ + 1) := by
  cases h with
  | before e h => exact .before e (by omega) h (h.opens T.place₁ hne hg) (by omega)
  | after j e₁ e₂ => exact .after j (j + 1) e₁ e₂ (by omega) (by omega) (by omega)

theorem drop_after (j : Nat) : row₂.drop (k₂ + j) = row₁.drop (k₁ + j) := by
  rw [drop_behind T.place₁ T.k₁_eq, drop_behind T.place₂ T.k₂_eq]

theorem run (h : Places pre k₁ k₂ p₁ p₂) {f : Str → Bool} (hf : ∀ s, f s = true → Ordinary s) :
    symRun f (row₂.drop p₂) = symRun f (row₁.drop p₁) ∧
      Zone pre k₁ k₂ p₁ p₂ (p₁ + (symRun f (row₁.drop p₁)).length)
        (p₂ + (symRun f (row₁.drop p₁)).length) := by
  cases h with
  | before e h =>
    subst e
    have h1 : f ['('] = false := Bool.eq_false_iff.2 fun hh => (hf _ hh).1 rfl
    refine ⟨?_, .before rfl rfl h (h.run hf T.place₁) (by omega)⟩
    rw [T.place₁.drop h.1, T.place₂.drop h.1, symRun_stop h1, symRun_stop h1]
  | after j e₁ e₂ =>
    subst e₁ e₂
    exact ⟨by rw [T.drop_after], .after j _ rfl rfl (Nat.add_assoc ..) (Nat.add_assoc ..) (by omega)⟩

theorem symbols (h : Places pre k₁ k₂ p₁ p₂) {ss : List Str} (hs : ∀ s ∈ ss, Ordinary s) :
    (ss.map Node.symbol).isPrefixOf (row₂.drop p₂) = (ss.map Node.symbol).isPrefixOf (row₁.drop p₁) ∧
      ((ss.map Node.symbol).isPrefixOf (row₁.drop p₁) = true →
        Zone pre k₁ k₂ p₁ p₂ (p₁ + ss.length) (p₂ + ss.length)) := by
  cases h with
  | before e h =>
    subst e
    refine ⟨?_, fun hp => .before rfl rfl h (h.symbols hs T.place₁ hp) (by omega)⟩
    rw [T.place₁.drop h.1, T.place₂.drop h.1, prefix_stop _ fun hm => (hs _ hm).1 rfl,
      prefix_stop _ fun hm => (hs _ hm).1 rfl]
  | after j e₁ e₂ =>
    subst e₁ e₂
    exact ⟨by rw [T.drop_after],
      fun _ => .after j _ rfl rfl (Nat.add_assoc ..) (Nat.add_assoc ..) (by omega)⟩

end TwoRows

/-! ## Nodes -/

/-- Two nodes that are read from `s₁` to `p₁` in one row, and from `s₂` to `p₂` in the other one. -/
inductive Kin (pre : Row) (k₁ k₂ : Nat) (u₁ u₂ : SNode) (s₁ s₂ : Nat) (t₁ t₂ : SNode)
    (p₁ p₂ : Nat) : Prop
  | before (es : s₂ = s₁) (ep : p₂ = p₁) (hs : Before pre s₁) (hp : Before pre p₁) (e : t₂ = t₁)
  | after (i j : Nat) (t : SNode) (es₁ : s₁ = k₁ + i) (es₂ : s₂ = k₂ + i) (ep₁ : p₁ = k₁ + j)
    (ep₂ : p₂ = k₂ + j) (e₁ : t₁ = t.shift k₁) (e₂ : t₂ = t.shift k₂)
  | cross (j : Nat) (es : s₂ = s₁) (hs : Before pre s₁) (ep₁ : p₁ = k₁ + j) (ep₂ : p₂ = k₂ + j)
    (h : SNode.Swapped k₁ k₂ u₁ u₂ t₁ t₂)

/-- The same with nodes one after the other. -/
inductive Kins (pre : Row) (k₁ k₂ : Nat) (u₁ u₂ : SNode) (s₁ s₂ : Nat) (l₁ l₂ : List SNode)
    (p₁ p₂ : Nat) : Prop
  | before (es : s₂ = s₁) (ep : p₂ = p₁) (hs : Before pre s₁) (hp : Before pre p₁) (e : l₂ = l₁)
  | after (i j : Nat) (l : List SNode) (es₁ : s₁ = k₁ + i) (es₂ : s₂ = k₂ + i) (ep₁ : p₁ = k₁ + j)
    (ep₂ : p₂ = k₂ + j) (e₁ : l₁ = SNode.shiftAll k₁ l) (e₂ : l₂ = SNode.shiftAll k₂ l)
  | cross (j : Nat) (a b : List SNode) (t₁ t₂ : SNode) (es : s₂ = s₁) (hs : Before pre s₁)
    (ep₁ : p₁ = k₁ + j) (ep₂ : p₂ = k₂ + j) (h : SNode.Swapped k₁ k₂ u₁ u₂ t₁ t₂)
    (e₁ : l₁ = a ++ t₁ :: SNode.shiftAll k₁ b) (e₂ : l₂ = a ++ t₂ :: SNode.shiftAll k₂ b)

variable {u₁ u₂ t₁ t₂ : SNode} {l₁ l₂ : List SNode}

theorem Kins.nil (h : Places pre k₁ k₂ p₁ p₂) : Kins pre k₁ k₂ u₁ u₂ p₁ p₂ [] [] p₁ p₂ := by
  cases h with
  | before e h => exact .before e e h h rfl
  | after j e₁ e₂ => exact .after j j [] e₁ e₂ e₁ e₂ rfl rfl

theorem Kins.cons (hk : pre.length < k₁) (h : Kin pre k₁ k₂ u₁ u₂ s₁ s₂ t₁ t₂ m₁ m₂)
    (h' : Kins pre k₁ k₂ u₁ u₂ m₁ m₂ l₁ l₂ p₁ p₂) :
    Kins pre k₁ k₂ u₁ u₂ s₁ s₂ (t₁ :: l₁) (t₂ :: l₂) p₁ p₂ := by
  cases h with
  | before es ep hs hp e =>
    cases h' with
    | before es' ep' hs' hp' e' => exact .before es ep' hs hp' (by rw [e, e'])
    | after i j l es₁ es₂ ep₁ ep₂ e₁ e₂ =>
      have := hp.1
      omega
    | cross j a b c₁ c₂ es' hs' ep₁ ep₂ h e₁ e₂ =>
      exact .cross j (t₁ :: a) b c₁ c₂ es hs ep₁ ep₂ h (by rw [e₁]; rfl) (by rw [e, e₂]; rfl)
  | after i j t es₁ es₂ ep₁ ep₂ e₁ e₂ =>
    cases h' with
    | before es' ep' hs' hp' e' =>
      have := hs'.1
      omega
    | after i' j' l es₁' es₂' ep₁' ep₂' e₁' e₂' =>
      exact .after i j' (t :: l) es₁ es₂ ep₁' ep₂' (by rw [e₁, e₁', SNode.shiftAll])
        (by rw [e₂, e₂', SNode.shiftAll])
    | cross j a b c₁ c₂ es' hs' ep₁ ep₂ h e₁ e₂ =>
      have := hs'.1
      omega
  | cross j es hs ep₁ ep₂ h =>
    cases h' with
    | before es' ep' hs' hp' e' =>
      have := hs'.1
      omega
    | after i' j' l es₁' es₂' ep₁' ep₂' e₁' e₂' =>
      exact .cross j' [] l t₁ t₂ es hs ep₁' ep₂' h (by rw [e₁']; rfl) (by rw [e₂']; rfl)
    | cross j a b c₁ c₂ es' hs' ep₁ ep₂ h e₁ e₂ =>
      have := hs'.1
      omega

theorem Kins.node (h : Kins pre k₁ k₂ u₁ u₂ s₁ s₂ l₁ l₂ p₁ p₂) (n : Nat) :
    Kin pre k₁ k₂ u₁ u₂ s₁ s₂ (.children n s₁ p₁ l₁) (.children n s₂ p₂ l₂) p₁ p₂ := by
  cases h with
  | before es ep hs hp e => exact .before es ep hs hp (by rw [es, ep, e])
  | after i j l es₁ es₂ ep₁ ep₂ e₁ e₂ =>
    exact .after i j (.children n i j l) es₁ es₂ ep₁ ep₂ (by rw [SNode.shift, es₁, ep₁, e₁])
      (by rw [SNode.shift, es₂, ep₂, e₂])
  | cross j a b c₁ c₂ es hs ep₁ ep₂ h e₁ e₂ =>
    refine .cross j es hs ep₁ ep₂ ?_
    rw [es, ep₁, ep₂, e₁, e₂]
    exact .inside h

/-- see `Kin`; also where the nodes begin and end -/
structure Akin (pre : Row) (k₁ k₂ : Nat) (u₁ u₂ : SNode) (s₁ s₂ : Nat) (t₁ t₂ : SNode)
    (p₁ p₂ : Nat) : Prop where
  kin : Kin pre k₁ k₂ u₁ u₂ s₁ s₂ t₁ t₂ p₁ p₂
  lo₁ : t₁.lo = s₁
  hi₁ : t₁.hi = p₁
  lo₂ : t₂.lo = s₂
  hi₂ : t₂.hi = p₂
  le₁ : s₁ ≤ p₁
  le₂ : s₂ ≤ p₂

theorem Kin.places (h : Kin pre k₁ k₂ u₁ u₂ s₁ s₂ t₁ t₂ p₁ p₂) : Places pre k₁ k₂ p₁ p₂ := by
  cases h with
  | before es ep hs hp e => exact .before ep hp
  | after i j t es₁ es₂ ep₁ ep₂ e₁ e₂ => exact .after j ep₁ ep₂
  | cross j es hs ep₁ ep₂ h => exact .after j ep₁ ep₂

theorem Zone.le₁ (h : Zone pre k₁ k₂ s₁ s₂ p₁ p₂) : s₁ ≤ p₁ := by
  cases h <;> omega

theorem Zone.le₂ (h : Zone pre k₁ k₂ s₁ s₂ p₁ p₂) : s₂ ≤ p₂ := by
  cases h <;> omega

theorem Zone.leaf (h : Zone pre k₁ k₂ s₁ s₂ p₁ p₂) (n : Nat) (ty : LeafType) (ss : List Str) :
    Akin pre k₁ k₂ u₁ u₂ s₁ s₂ (.leaf n s₁ p₁ ty ss) (.leaf n s₂ p₂ ty ss) p₁ p₂ := by
  refine ⟨?_, rfl, rfl, rfl, rfl, h.le₁, h.le₂⟩
  cases h with
  | before es ep hs hp le => exact .before es ep hs hp (by rw [es, ep])
  | after i j es₁ es₂ ep₁ ep₂ le =>
    exact .after i j (.leaf n i j ty ss) es₁ es₂ ep₁ ep₂ (by rw [SNode.shift, es₁, ep₁])
      (by rw [SNode.shift, es₂, ep₂])

theorem Zone.cells (h : Zone pre k₁ k₂ s₁ s₂ p₁ p₂) (n : Nat) (ts : List SNode) (w : Nat) :
    Akin pre k₁ k₂ u₁ u₂ s₁ s₂ (.newRows n s₁ p₁ ts w) (.newRows n s₂ p₂ ts w) p₁ p₂ := by
  refine ⟨?_, rfl, rfl, rfl, rfl, h.le₁, h.le₂⟩
  cases h with
  | before es ep hs hp le => exact .before es ep hs hp (by rw [es, ep])
  | after i j es₁ es₂ ep₁ ep₂ le =>
    exact .after i j (.newRows n i j ts w) es₁ es₂ ep₁ ep₂ (by rw [SNode.shift, es₁, ep₁])
      (by rw [SNode.shift, es₂, ep₂])

theorem Places.missing (h : Places pre k₁ k₂ p₁ p₂) (n : Nat) :
    Akin pre k₁ k₂ u₁ u₂ p₁ p₂ (.children n p₁ p₁ []) (.children n p₂ p₂ []) p₁ p₂ :=
  ⟨(Kins.nil h).node n, rfl, rfl, rfl, rfl, Nat.le_refl _, Nat.le_refl _⟩

section

variable {a a' b b' c c' : SNode} {q₁ q₂ : Nat}

theorem Akin.two (hk : pre.length < k₁) (ha : Akin pre k₁ k₂ u₁ u₂ s₁ s₂ a a' m₁ m₂)
    (hb : Akin pre k₁ k₂ u₁ u₂ m₁ m₂ b b' p₁ p₂) (n : Nat) :
    Sim (SNode.new n s₁ p₁ (.children [a, b])) (SNode.new n s₂ p₂ (.children [a', b'])) fun t t' =>
      Akin pre k₁ k₂ u₁ u₂ s₁ s₂ t t' p₁ p₂ := by
  intro t ht
  have e1 := new_two (name := n) (lo := s₁) (a := a) (b := b) ha.lo₁ (by rw [hb.lo₁, ha.hi₁])
  have e2 := new_two (name := n) (lo := s₂) (a := a') (b := b') ha.lo₂ (by rw [hb.lo₂, ha.hi₂])
  rw [hb.hi₁] at e1
  rw [hb.hi₂] at e2
  rw [e1] at ht
  cases ht
  have hkin := (Kins.cons hk ha.kin (Kins.cons hk hb.kin (Kins.nil hb.kin.places))).node n
  exact ⟨_, e2, hkin, rfl, rfl, rfl, rfl, Nat.le_trans ha.le₁ hb.le₁, Nat.le_trans ha.le₂ hb.le₂⟩

theorem Akin.three (hk : pre.length < k₁) (ha : Akin pre k₁ k₂ u₁ u₂ s₁ s₂ a a' m₁ m₂)
    (hb : Akin pre k₁ k₂ u₁ u₂ m₁ m₂ b b' q₁ q₂) (hc : Akin pre k₁ k₂ u₁ u₂ q₁ q₂ c c' p₁ p₂)
    (n : Nat) :
    Sim (SNode.new n s₁ p₁ (.children [a, b, c])) (SNode.new n s₂ p₂ (.children [a', b', c']))
      fun t t' => Akin pre k₁ k₂ u₁ u₂ s₁ s₂ t t' p₁ p₂ := by
  intro t ht
  have e1 := new_three (name := n) (lo := s₁) (a := a) (b := b) (c := c) ha.lo₁
    (by rw [hb.lo₁, ha.hi₁]) (by rw [hc.lo₁, hb.hi₁])
  have e2 := new_three (name := n) (lo := s₂) (a := a') (b := b') (c := c') ha.lo₂
    (by rw [hb.lo₂, ha.hi₂]) (by rw [hc.lo₂, hb.hi₂])
  rw [hc.hi₁] at e1
  rw [hc.hi₂] at e2
  rw [e1] at ht
  cases ht
  have hkin := (Kins.cons hk ha.kin (Kins.cons hk hb.kin
    (Kins.cons hk hc.kin (Kins.nil hc.kin.places)))).node n
  exact ⟨_, e2, hkin, rfl, rfl, rfl, rfl, Nat.le_trans ha.le₁ (Nat.le_trans hb.le₁ hc.le₁),
    Nat.le_trans ha.le₂ (Nat.le_trans hb.le₂ hc.le₂)⟩

theorem Akin.ranges₁ (ha : Akin pre k₁ k₂ u₁ u₂ s₁ s₂ a a' m₁ m₂)
    (hb : Akin pre k₁ k₂ u₁ u₂ m₁ m₂ b b' p₁ p₂) : combineRanges a.range b.range = (s₁, p₁) := by
  have := ha.le₁
  have := hb.le₁
  simp only [combineRanges, SNode.range, ha.lo₁, ha.hi₁, hb.lo₁, hb.hi₁, Prod.mk.injEq]
  omega

theorem Akin.ranges₂ (ha : Akin pre k₁ k₂ u₁ u₂ s₁ s₂ a a' m₁ m₂)
    (hb : Akin pre k₁ k₂ u₁ u₂ m₁ m₂ b b' p₁ p₂) : combineRanges a'.range b'.range = (s₂, p₂) := by
  have := ha.le₂
  have := hb.le₂
  simp only [combineRanges, SNode.range, ha.lo₂, ha.hi₂, hb.lo₂, hb.hi₂, Prod.mk.injEq]
  omega

theorem Akin.postfix (hk : pre.length < k₁) (ha : Akin pre k₁ k₂ u₁ u₂ s₁ s₂ a a' m₁ m₂)
    (hb : Akin pre k₁ k₂ u₁ u₂ m₁ m₂ b b' p₁ p₂) (n : Nat) :
    Sim (buildPostfix n b a) (buildPostfix n b' a') fun t t' =>
      Akin pre k₁ k₂ u₁ u₂ s₁ s₂ t t' p₁ p₂ := by
  unfold buildPostfix
  rw [ha.ranges₁ hb, ha.ranges₂ hb]
  exact ha.two hk hb n

theorem Akin.prefix (hk : pre.length < k₁) (ha : Akin pre k₁ k₂ u₁ u₂ s₁ s₂ a a' m₁ m₂)
    (hb : Akin pre k₁ k₂ u₁ u₂ m₁ m₂ b b' p₁ p₂) (n : Nat) :
    Sim (buildPrefix n a b) (buildPrefix n a' b') fun t t' =>
      Akin pre k₁ k₂ u₁ u₂ s₁ s₂ t t' p₁ p₂ := by
  unfold buildPrefix
  rw [ha.ranges₁ hb, ha.ranges₂ hb]
  exact ha.two hk hb n

theorem Akin.infix (hk : pre.length < k₁) (ha : Akin pre k₁ k₂ u₁ u₂ s₁ s₂ a a' m₁ m₂)
    (hb : Akin pre k₁ k₂ u₁ u₂ m₁ m₂ b b' q₁ q₂) (hc : Akin pre k₁ k₂ u₁ u₂ q₁ q₂ c c' p₁ p₂)
    (n : Nat) :
    Sim (buildInfix n b a c) (buildInfix n b' a' c') fun t t' =>
      Akin pre k₁ k₂ u₁ u₂ s₁ s₂ t t' p₁ p₂ := by
  have h1 := ha.le₁
  have h2 := hb.le₁
  have h3 := hc.le₁
  have h1' := ha.le₂
  have h2' := hb.le₂
  have h3' := hc.le₂
  have e1 : combineRanges a.range (m₁, p₁) = (s₁, p₁) := by
    simp only [combineRanges, SNode.range, ha.lo₁, ha.hi₁, Prod.mk.injEq]
    omega
  have e2 : combineRanges a'.range (m₂, p₂) = (s₂, p₂) := by
    simp only [combineRanges, SNode.range, ha.lo₂, ha.hi₂, Prod.mk.injEq]
    omega
  unfold buildInfix
  rw [hb.ranges₁ hc, hb.ranges₂ hc, e1, e2]
  exact ha.three hk hb hc n

theorem Akin.missingOperator {g : Grammar} (hk : pre.length < k₁)
    (ha : Akin pre k₁ k₂ u₁ u₂ s₁ s₂ a a' m₁ m₂) (hb : Akin pre k₁ k₂ u₁ u₂ m₁ m₂ b b' p₁ p₂) :
    Sim (makeMissingOperator g a b) (makeMissingOperator g a' b') fun t t' =>
      Akin pre k₁ k₂ u₁ u₂ s₁ s₂ t t' p₁ p₂ := by
  unfold makeMissingOperator BuiltIn.errorMissingOperator
  simp only [ha.ranges₁ hb, ha.ranges₂ hb, ha.hi₁, ha.hi₂]
  refine Sim.bind (R := fun t t' => Akin pre k₁ k₂ u₁ u₂ m₁ m₂ t t' m₁ m₂)
    (Sim.ok (ha.kin.places.missing _)) ?_
  intro x y hxy
  exact ha.three hk hxy hb _

theorem Places.missingAtom {g : Grammar} (h : Places pre k₁ k₂ p₁ p₂) :
    Sim (makeMissingAtom g p₁) (makeMissingAtom g p₂) fun t t' =>
      Akin pre k₁ k₂ u₁ u₂ p₁ p₂ t t' p₁ p₂ := Sim.ok (h.missing _)

/-- The spaces around something: none, or a node. -/
def Spaces (pre : Row) (k₁ k₂ : Nat) (u₁ u₂ : SNode) (s₁ s₂ : Nat) (o o' : Option SNode)
    (p₁ p₂ : Nat) : Prop :=
  (o = none ∧ o' = none ∧ s₁ = p₁ ∧ s₂ = p₂) ∨
    ∃ t t', o = some t ∧ o' = some t' ∧ Akin pre k₁ k₂ u₁ u₂ s₁ s₂ t t' p₁ p₂

theorem Akin.whitespaces (hk : pre.length < k₁) {o o' x x' : Option SNode}
    (ho : Spaces pre k₁ k₂ u₁ u₂ s₁ s₂ o o' m₁ m₂) (ha : Akin pre k₁ k₂ u₁ u₂ m₁ m₂ a a' q₁ q₂)
    (hx : Spaces pre k₁ k₂ u₁ u₂ q₁ q₂ x x' p₁ p₂) (w : BuiltIn) :
    Sim (w.whitespacesNode o a x s₁ p₁) (w.whitespacesNode o' a' x' s₂ p₂) fun t t' =>
      Akin pre k₁ k₂ u₁ u₂ s₁ s₂ t t' p₁ p₂ := by
  rcases ho with ⟨rfl, rfl, rfl, rfl⟩ | ⟨b, b', rfl, rfl, hb⟩ <;>
    rcases hx with ⟨rfl, rfl, rfl, rfl⟩ | ⟨c, c', rfl, rfl, hc⟩
  · exact Sim.ok ha
  · exact ha.two hk hc _
  · exact hb.two hk ha _
  · exact hb.three hk ha hc _

end

/-! ## Tokens -/

/-- The calls read both rows in the same way. -/
def BothWays (call₁ call₂ : Rec) (u₁ u₂ : SNode) (pre row₁ row₂ : Row) (k₁ k₂ : Nat) : Prop :=
  ∀ p₁ p₂ d min e, Places pre k₁ k₂ p₁ p₂ → p₁ ≤ row₁.length → Balanced d (row₁.drop p₁) →
    Endings [] d e e → Sim (call₁ row₁ p₁ min e) (call₂ row₂ p₂ min e) fun a b =>
      Akin pre k₁ k₂ u₁ u₂ p₁ p₂ a.1.node b.1.node a.2 b.2 ∧
        ((∃ t t', a.1 = .stop t ∧ b.1 = .stop t') ∨ ∃ t t', a.1 = .expression t ∧ b.1 = .expression t')

/-- Everything that is fixed while the rows are read. -/
structure Twins (g : Grammar) (call₁ call₂ : Rec) (u₁ u₂ : SNode) (pre r₁ r₂ post row₁ row₂ : Row)
    (k₁ k₂ : Nat) : Prop where
  rows : TwoRows pre r₁ r₂ post row₁ row₂ k₁ k₂
  tame : g.Tame
  shorter : row₁.length ≤ row₂.length
  step : GoAlong call₁ 0 row₁ row₁ []
  le : call₁.Le call₂
  both : BothWays call₁ call₂ u₁ u₂ pre row₁ row₂ k₁ k₂
  here₁ : ∀ res p, call₁ row₁ (pre.length + 1) (0, .weak) (.sym [')']) = .ok (res, p) →
    res.node = u₁ ∧ u₁.lo = pre.length + 1 ∧ u₁.hi = p ∧ p = pre.length + 1 + r₁.length
  here₂ : ∃ res, call₂ row₂ (pre.length + 1) (0, .weak) (.sym [')']) =
    .ok (res, pre.length + 1 + r₂.length) ∧ res.node = u₂ ∧ u₂.lo = pre.length + 1 ∧
      u₂.hi = pre.length + 1 + r₂.length

/-- The same thing is read in both rows, on one side of the brackets. -/
def SameRead {α : Type} (pre : Row) (k₁ k₂ s₁ s₂ : Nat) (o₁ o₂ : Option (α × Nat)) : Prop :=
  (o₁ = none ∧ o₂ = none) ∨ ∃ a p₁ p₂, o₁ = some (a, p₁) ∧ o₂ = some (a, p₂) ∧
    Zone pre k₁ k₂ s₁ s₂ p₁ p₂

/-- What is read in both rows gives nodes that are alike. -/
def AlikeRead (pre : Row) (k₁ k₂ : Nat) (u₁ u₂ : SNode) (s₁ s₂ : Nat)
    (o₁ o₂ : Option (SChildren × Nat)) : Prop :=
  (o₁ = none ∧ o₂ = none) ∨ ∃ c₁ c₂ p₁ p₂, o₁ = some (c₁, p₁) ∧ o₂ = some (c₂, p₂) ∧
    ∀ n, Sim (SNode.new n s₁ p₁ c₁) (SNode.new n s₂ p₂ c₂) fun t t' =>
      Akin pre k₁ k₂ u₁ u₂ s₁ s₂ t t' p₁ p₂

theorem SameRead.alike {o₁ o₂ : Option (List Str × Nat)} (h : SameRead pre k₁ k₂ s₁ s₂ o₁ o₂)
    (ty : LeafType) : AlikeRead pre k₁ k₂ u₁ u₂ s₁ s₂ (o₁.map fun r => (.leaf ty r.1, r.2))
      (o₂.map fun r => (.leaf ty r.1, r.2)) := by
  rcases h with ⟨rfl, rfl⟩ | ⟨a, p₁, p₂, rfl, rfl, hz⟩
  · exact .inl ⟨rfl, rfl⟩
  · exact .inr ⟨_, _, p₁, p₂, rfl, rfl, fun n => Sim.ok (hz.leaf n ty a)⟩

variable {g : Grammar} {call₁ call₂ : Rec} {d : Nat}

namespace TwoRows

variable (T : TwoRows pre r₁ r₂ post row₁ row₂ k₁ k₂)
include T

theorem digits (h : Places pre k₁ k₂ p₁ p₂) :
    SameRead pre k₁ k₂ p₁ p₂ (numberDigits row₁ p₁) (numberDigits row₂ p₂) := by
  obtain ⟨h1, h2⟩ := T.run h isDigits_ordinary
  unfold numberDigits
  rw [h1]
  dsimp only
  split
  · exact .inl ⟨rfl, rfl⟩
  · exact .inr ⟨_, _, _, rfl, rfl, h2⟩

theorem fractional (h : Places pre k₁ k₂ p₁ p₂) :
    SameRead pre k₁ k₂ p₁ p₂ (parseFractional row₁ p₁) (parseFractional row₂ p₂) := by
  unfold parseFractional
  rw [T.select h]
  rcases selectSym_cases (f := fun s => s == ['.']) (row := row₁) (pos := p₁) with
    hs | ⟨s, rest, hd, hf, hs, hlt, hd'⟩
  · rw [hs]
    exact .inl ⟨rfl, rfl⟩
  · obtain rfl : s = ['.'] := by simpa using hf
    rw [hs]
    have hz := T.next h ⟨by decide, by decide, by decide⟩ (drop_cons hd).1
    simp only [Option.map_some, Option.bind_eq_bind, Option.bind_some]
    rcases T.digits hz.places with ⟨e1, e2⟩ | ⟨a, q₁, q₂, e1, e2, hz'⟩
    · rw [e1, e2]
      exact .inl ⟨rfl, rfl⟩
    · rw [e1, e2]
      exact .inr ⟨_, _, _, rfl, rfl, hz.trans T.lt₁ hz'⟩

theorem number (h : Places pre k₁ k₂ p₁ p₂) :
    AlikeRead pre k₁ k₂ u₁ u₂ p₁ p₂ (parseNumber row₁ p₁) (parseNumber row₂ p₂) := by
  unfold parseNumber
  rcases T.digits h with ⟨e1, e2⟩ | ⟨a, q₁, q₂, e1, e2, hz⟩
  · rw [e1, e2]
    exact .inl ⟨rfl, rfl⟩
  · rw [e1, e2]
    simp only [Option.bind_eq_bind, Option.bind_some]
    rcases T.fractional hz.places with ⟨e1, e2⟩ | ⟨b, q₁', q₂', e1, e2, hz'⟩
    · rw [e1, e2]
      exact .inr ⟨_, _, _, _, rfl, rfl, fun n => Sim.ok (hz.leaf n _ _)⟩
    · rw [e1, e2]
      exact .inr ⟨_, _, _, _, rfl, rfl, fun n => Sim.ok ((hz.trans T.lt₁ hz').leaf n _ _)⟩

theorem var (hg : g.Tame) (h : Places pre k₁ k₂ p₁ p₂) :
    AlikeRead pre k₁ k₂ u₁ u₂ p₁ p₂ (parseVariable g row₁ p₁) (parseVariable g row₂ p₂) := by
  have hst : ∀ s, isIdentifierStart g s = true → Ordinary s := ordinary_of
    (by simp [isIdentifierStart, hg.start]) (by simp [isIdentifierStart, hg.start])
    (by simp [isIdentifierStart, hg.start])
  have hco : ∀ s, isIdentifierContinue g s = true → Ordinary s := ordinary_of
    (by simp [isIdentifierContinue, hg.continue_]) (by simp [isIdentifierContinue, hg.continue_])
    (by simp [isIdentifierContinue, hg.continue_])
  unfold parseVariable
  rw [T.select h]
  rcases selectSym_cases (f := isIdentifierStart g) (row := row₁) (pos := p₁) with
    hs | ⟨s, rest, hd, hf, hs, hlt, hd'⟩
  · rw [hs]
    exact .inl ⟨rfl, rfl⟩
  · rw [hs]
    have hz := T.next h (hst s hf) (drop_cons hd).1
    obtain ⟨e, hz'⟩ := T.run hz.places hco
    simp only [Option.map_some, Option.bind_eq_bind, Option.bind_some, e]
    exact .inr ⟨_, _, _, _, rfl, rfl, fun n => Sim.ok ((hz.trans T.lt₁ hz').leaf n _ _)⟩

theorem string (h : Places pre k₁ k₂ p₁ p₂) :
    AlikeRead pre k₁ k₂ u₁ u₂ p₁ p₂ (parseString row₁ p₁) (parseString row₂ p₂) := by
  unfold parseString
  rw [T.select h]
  rcases selectSym_cases (f := fun s => s == ['"']) (row := row₁) (pos := p₁) with
    hs | ⟨s, rest, hd, hf, hs, hlt, hd'⟩
  · rw [hs]
    exact .inl ⟨rfl, rfl⟩
  · obtain rfl : s = ['"'] := by simpa using hf
    rw [hs]
    have hget := (drop_cons hd).1
    simp only [Option.map_some, Option.bind_eq_bind, Option.bind_some]
    cases h with
    | before e hb =>
      subst e
      have hlt' : p₂ < pre.length := by
        refine Nat.lt_of_le_of_ne hb.1 fun he => ?_
        subst he
        rw [T.place₁.get_open] at hget
        cases hget
      rw [T.place₁.get hlt'] at hget
      obtain ⟨l, r', hl, h1, h2⟩ := hb.quotes hget
      have hquote : ∀ {r row : Row}, Place pre r post row →
          selectSym (fun s => s == ['"']) row (p₂ + 1 + l.length) =
            some (['"'], p₂ + 1 + l.length + 1) := by
        intro r row hp
        have h3 : pre.drop (p₂ + 1 + l.length) = .symbol ['"'] :: r' := by
          rw [← List.drop_drop, h1, List.drop_left' (List.length_map _)]
        have h4 := (drop_cons h3).1
        obtain ⟨h5, -⟩ := List.getElem?_eq_some_iff.1 h4
        simp [selectSym, hp.get h5, h4]
      have e1 : stringBody (row₁.drop (p₂ + 1)) = l := by
        rw [T.place₁.drop hlt', h1, List.append_assoc, List.cons_append, stringBody_quoted hl]
      have e2 : stringBody (row₂.drop (p₂ + 1)) = l := by
        rw [T.place₂.drop hlt', h1, List.append_assoc, List.cons_append, stringBody_quoted hl]
      rw [e1, e2, hquote T.place₁, hquote T.place₂]
      exact .inr ⟨_, _, _, _, rfl, rfl, fun n => Sim.ok
        ((Zone.before rfl rfl hb h2 (by omega)).leaf n _ _)⟩
    | after j e₁ e₂ =>
      subst e₁ e₂
      rw [Nat.add_assoc k₁, Nat.add_assoc k₂, T.drop_after]
      generalize stringBody (row₁.drop (k₁ + (j + 1))) = l
      rw [T.select (.after (j + 1 + l.length) (Nat.add_assoc ..) (Nat.add_assoc ..))]
      rcases selectSym_cases (f := fun s => s == ['"']) (row := row₁)
        (pos := k₁ + (j + 1) + l.length) with hs | ⟨s, rest, hd, hf, hs, hlt, hd'⟩
      · rw [hs]
        exact .inl ⟨rfl, rfl⟩
      · rw [hs]
        refine .inr ⟨_, _, _, k₂ + (j + 1) + l.length + 1, rfl, rfl, fun n => Sim.ok
          ((Zone.after j (j + 1 + l.length + 1) rfl rfl (by omega) (by omega) (by omega)).leaf n _ _)⟩

theorem container (hle : call₁.Le call₂) (h : Places pre k₁ k₂ p₁ p₂) (v : Variant) :
    Sim (parseContainer call₁ v row₁ p₁) (parseContainer call₂ v row₂ p₂)
      (AlikeRead pre k₁ k₂ u₁ u₂ p₁ p₂) := by
  unfold parseContainer
  rw [T.get h]
  cases hg : row₁[p₁]? with
  | none => exact Sim.ok (.inl ⟨rfl, rfl⟩)
  | some n =>
    cases n with
    | symbol s => exact Sim.ok (.inl ⟨rfl, rfl⟩)
    | container v' cells w =>
      dsimp only
      split
      · refine Sim.bind (R := Eq) (fun a ha => ⟨a, parseCells_mono hle _ a ha, rfl⟩) ?_
        rintro ts _ rfl
        refine Sim.bind (R := Eq) (fun a ha => ⟨a, ha, rfl⟩) ?_
        rintro gr _ rfl
        exact Sim.ok (.inr ⟨_, _, _, _, rfl, rfl, fun n => Sim.ok ((T.node h hg).cells n _ _)⟩)
      · exact Sim.ok (.inl ⟨rfl, rfl⟩)

theorem emptyBrackets (h : Places pre k₁ k₂ p₁ p₂) (n : Nat) :
    Sim (parseEmptyBrackets n ['('] [')'] row₁ p₁) (parseEmptyBrackets n ['('] [')'] row₂ p₂)
      (AlikeRead pre k₁ k₂ u₁ u₂ p₁ p₂) := by
  unfold parseEmptyBrackets
  rw [T.select h]
  rcases selectSym_cases (f := fun s => s == ['(']) (row := row₁) (pos := p₁) with
    hs | ⟨s, rest, hd, hf, hs, hlt, hd'⟩
  · rw [hs]
    exact Sim.ok (.inl ⟨rfl, rfl⟩)
  obtain rfl : s = ['('] := by simpa using hf
  rw [hs]
  dsimp only [Option.map_some]
  by_cases hq : p₁ = pre.length
  · have hk₁ := T.lt₁
    have hp₂ : p₂ = pre.length := by
      cases h with
      | before e h => omega
      | after j e₁ e₂ => omega
    have hno : ∀ {r row : Row}, Place pre r post row →
        selectSym (fun s => s == [')']) row (pre.length + 1) = none := by
      intro r row hp
      have hr := hp.inside
      cases r with
      | nil => exact absurd rfl hp.some
      | cons x r =>
        have hget : row[pre.length + 1]? = some x := by
          rw [hp.row_eq, List.getElem?_append_right (by omega)]
          simp
        simp only [selectSym, hget]
        cases x with
        | container _ _ _ => rfl
        | symbol s =>
          have : s ≠ [')'] := by
            rintro rfl
            obtain ⟨_, h0, -⟩ := hr.close
            cases h0
          simp [this]
    rw [hq, hp₂, hno T.place₁, hno T.place₂]
    exact Sim.ok (.inl ⟨rfl, rfl⟩)
  · have hz := T.opens h hq (drop_cons hd).1
    rw [T.select hz.places]
    rcases selectSym_cases (f := fun s => s == [')']) (row := row₁) (pos := p₁ + 1) with
      hs2 | ⟨s, rest, hdr2, hf, hs2, hlt2, hd2⟩
    · rw [hs2]
      exact Sim.ok (.inl ⟨rfl, rfl⟩)
    · obtain rfl : s = [')'] := by simpa using hf
      rw [hs2]
      have hz' := T.closes hz.places (drop_cons hdr2).1
      simp only [new_leaf, M.ok_bind, Option.map_some]
      exact Sim.ok (.inr ⟨_, _, _, _, rfl, rfl, (hz.leaf n _ _).two T.lt₁ (hz'.leaf n _ _)⟩)

end TwoRows

section

variable (S : Twins g call₁ call₂ u₁ u₂ pre r₁ r₂ post row₁ row₂ k₁ k₂)
include S

theorem brackets_both (h : Places pre k₁ k₂ p₁ p₂) (hd : Balanced d (row₁.drop p₁)) :
    Sim (parseBrackets call₁ 0 ['('] [')'] row₁ p₁) (parseBrackets call₂ 0 ['('] [')'] row₂ p₂)
      (AlikeRead pre k₁ k₂ u₁ u₂ p₁ p₂) := by
  have T := S.rows
  unfold parseBrackets
  rw [T.select h]
  rcases selectSym_cases (f := fun s => s == ['(']) (row := row₁) (pos := p₁) with
    hs | ⟨s, rest, hdr, hf, hs, hlt, hd'⟩
  · rw [hs]
    exact Sim.ok (.inl ⟨rfl, rfl⟩)
  obtain rfl : s = ['('] := by simpa using hf
  rw [hs]
  dsimp only [Option.map_some]
  rw [hdr] at hd
  have hd1 : Balanced (d + 1) (row₁.drop (p₁ + 1)) := hd' ▸ hd.open
  by_cases hq : p₁ = pre.length
  · subst hq
    have hk₁ := T.lt₁
    obtain ⟨rfl, hb⟩ : p₂ = pre.length ∧ Before pre pre.length := by
      cases h with
      | before e h => exact ⟨e, h⟩
      | after j e₁ e₂ => omega
    have hsel : ∀ {r row : Row}, Place pre r post row →
        selectSym (fun s => s == [')']) row (pre.length + 1 + r.length) =
          some ([')'], pre.length + 1 + r.length + 1) := by
      intro r row hp
      have hget : row[pre.length + 1 + r.length]? = some (.symbol [')']) := by
        rw [hp.part.get_end]
        rfl
      simp [selectSym, hget]
    obtain ⟨res₂, hc₂, e₂, lo₂, hi₂⟩ := S.here₂
    intro o ho
    obtain ⟨⟨res₁, q₁⟩, hc₁, ho⟩ := M.bind_eq_ok.1 ho
    obtain ⟨e₁, lo₁, hi₁, rfl⟩ := S.here₁ _ _ hc₁
    simp only [hsel T.place₁, new_leaf, M.ok_bind] at ho
    cases ho
    simp only [hc₂, hsel T.place₂, new_leaf, M.ok_bind]
    refine ⟨_, rfl, .inr ⟨_, _, _, _, rfl, rfl, fun n => ?_⟩⟩
    have n1 : SNode.new n pre.length (pre.length + 1 + r₁.length + 1) (.children
        [.leaf 0 pre.length (pre.length + 1) .operator [['(']], res₁.node,
          .leaf 0 (pre.length + 1 + r₁.length) (pre.length + 1 + r₁.length + 1) .operator [[')']]]) =
        .ok (bracketsAround n u₁) := by
      rw [e₁, bracketsAround, lo₁, hi₁]
      exact new_three rfl lo₁ hi₁.symm
    have n2 : SNode.new n pre.length (pre.length + 1 + r₂.length + 1) (.children
        [.leaf 0 pre.length (pre.length + 1) .operator [['(']], res₂.node,
          .leaf 0 (pre.length + 1 + r₂.length) (pre.length + 1 + r₂.length + 1) .operator [[')']]]) =
        .ok (bracketsAround n u₂) := by
      rw [e₂, bracketsAround, lo₂, hi₂]
      exact new_three rfl lo₂ hi₂.symm
    have h1 := T.k₁_eq
    have h2 := T.k₂_eq
    rw [n1, n2]
    refine Sim.ok ⟨.cross 0 rfl hb (by omega) (by omega) (.here n), ?_, ?_, ?_, ?_, ?_, ?_⟩
    · exact (by omega : u₁.lo - 1 = pre.length)
    · exact (by omega : u₁.hi + 1 = pre.length + 1 + r₁.length + 1)
    · exact (by omega : u₂.lo - 1 = pre.length)
    · exact (by omega : u₂.hi + 1 = pre.length + 1 + r₂.length + 1)
    · omega
    · omega
  · have hz := T.opens h hq (drop_cons hdr).1
    refine Sim.bind_of (S.both _ _ _ _ _ hz.places hlt hd1 .inner) ?_
    rintro ⟨c₁, q₁⟩ ⟨c₂, q₂⟩ hcall ⟨hal, -⟩
    have hpl := hal.kin.places
    dsimp only at hpl hal ⊢
    rw [T.select hpl]
    rcases selectSym_cases (f := fun s => s == [')']) (row := row₁) (pos := q₁) with
      hs2 | ⟨s, rest, hdr2, hf, hs2, hlt2, hd2⟩
    · rw [hs2]
      exact Sim.ok (.inl ⟨rfl, rfl⟩)
    · obtain rfl : s = [')'] := by simpa using hf
      rw [hs2]
      have hz' := T.closes hpl (drop_cons hdr2).1
      simp only [new_leaf, M.ok_bind, Option.map_some]
      exact Sim.ok (.inr ⟨_, _, _, _, rfl, rfl,
        (hz.leaf 0 _ _).three T.lt₁ hal (hz'.leaf 0 _ _)⟩)

theorem token_both (h : Places pre k₁ k₂ p₁ p₂) (hd : Balanced d (row₁.drop p₁))
    {tp : TokenParser} (ht : tp.Tame) :
    Sim (tokenParse call₁ g tp row₁ p₁) (tokenParse call₂ g tp row₂ p₂)
      (AlikeRead pre k₁ k₂ u₁ u₂ p₁ p₂) := by
  have T := S.rows
  cases tp with
  | symbols ss ty =>
    refine Sim.ok ?_
    unfold justSymbols
    obtain ⟨e, hz⟩ := T.symbols h ht.2
    rw [e]
    split
    · rename_i hp
      exact .inr ⟨_, _, _, _, rfl, rfl, fun n => Sim.ok ((hz hp).leaf n _ _)⟩
    · exact .inl ⟨rfl, rfl⟩
  | brackets n o c =>
    obtain ⟨rfl, rfl, rfl⟩ := ht
    exact brackets_both S h hd
  | emptyBrackets n o c =>
    obtain ⟨rfl, rfl⟩ := ht
    exact T.emptyBrackets h n
  | container v => exact T.container S.le h v
  | «variable» => exact Sim.ok (T.var S.tame h)
  | number => exact Sim.ok (T.number h)
  | string => exact Sim.ok (T.string h)

end

/-! ## Rules -/

section

variable {a a' b b' : SNode}

theorem TwoRows.spaces (T : TwoRows pre r₁ r₂ post row₁ row₂ k₁ k₂) (h : Places pre k₁ k₂ p₁ p₂) :
    Sim (parseSpaces g row₁ p₁) (parseSpaces g row₂ p₂) fun x y =>
      Spaces pre k₁ k₂ u₁ u₂ p₁ p₂ x.1 y.1 x.2 y.2 ∧ Places pre k₁ k₂ x.2 y.2 := by
  obtain ⟨e, hz⟩ := T.run (f := fun s => s == [' ']) h
    (ordinary_of (by decide) (by decide) (by decide))
  unfold parseSpaces
  rw [e]
  dsimp only
  split
  · exact Sim.ok ⟨.inl ⟨rfl, rfl, rfl, rfl⟩, h⟩
  · exact Sim.ok ⟨.inr ⟨_, _, rfl, rfl, hz.leaf _ _ _⟩, hz.places⟩

/-- A node is read in both rows, or none. -/
def NodeRead (pre : Row) (k₁ k₂ : Nat) (u₁ u₂ : SNode) (s₁ s₂ : Nat)
    (o₁ o₂ : Option (SNode × Nat)) : Prop :=
  (o₁ = none ∧ o₂ = none) ∨ ∃ t₁ t₂ p₁ p₂, o₁ = some (t₁, p₁) ∧ o₂ = some (t₂, p₂) ∧
    Akin pre k₁ k₂ u₁ u₂ s₁ s₂ t₁ t₂ p₁ p₂

theorem TwoRows.script (T : TwoRows pre r₁ r₂ post row₁ row₂ k₁ k₂) (hle : call₁.Le call₂)
    (h : Places pre k₁ k₂ p₁ p₂) (v : Variant) :
    Sim (parseScript call₁ g v row₁ p₁) (parseScript call₂ g v row₂ p₂)
      (NodeRead pre k₁ k₂ u₁ u₂ p₁ p₂) := by
  unfold parseScript
  refine Sim.bind (T.container (u₁ := u₁) (u₂ := u₂) hle h v) ?_
  rintro o₁ o₂ (⟨rfl, rfl⟩ | ⟨c₁, c₂, q₁, q₂, rfl, rfl, hc⟩)
  · exact Sim.ok (.inl ⟨rfl, rfl⟩)
  · refine Sim.bind (hc _) ?_
    intro t t' ht
    refine Sim.bind (T.spaces (u₁ := u₁) (u₂ := u₂) ht.kin.places) ?_
    rintro ⟨x, q₁'⟩ ⟨x', q₂'⟩ ⟨hx, hpl⟩
    refine Sim.bind (Akin.whitespaces T.lt₁ (.inl ⟨rfl, rfl, rfl, rfl⟩) ht hx _) ?_
    intro w w' hw
    exact Sim.ok (.inr ⟨_, _, _, _, rfl, rfl, hw⟩)

theorem TwoRows.scripts (T : TwoRows pre r₁ r₂ post row₁ row₂ k₁ k₂) (hle : call₁.Le call₂) :
    ∀ (n₁ n₂ : Nat) (t₁ t₂ : SNode) (p₁ p₂ : Nat), n₁ ≤ n₂ →
    Akin pre k₁ k₂ u₁ u₂ s₁ s₂ t₁ t₂ p₁ p₂ →
    Sim (parseScripts call₁ g row₁ n₁ t₁ p₁) (parseScripts call₂ g row₂ n₂ t₂ p₂) fun x y =>
      Akin pre k₁ k₂ u₁ u₂ s₁ s₂ x.1 y.1 x.2 y.2 := by
  intro n₁
  induction n₁ with
  | zero => intros; exact Sim.error
  | succ n₁ ih =>
    intro n₂ t₁ t₂ p₁ p₂ hn ht
    obtain ⟨n₂, rfl⟩ : ∃ n, n₂ = n + 1 := ⟨n₂ - 1, by omega⟩
    unfold parseScripts
    refine Sim.bind (T.script (u₁ := u₁) (u₂ := u₂) hle ht.kin.places .sub) ?_
    rintro o₁ o₂ (⟨rfl, rfl⟩ | ⟨c₁, c₂, q₁, q₂, rfl, rfl, hc⟩)
    · refine Sim.bind (T.script (u₁ := u₁) (u₂ := u₂) hle ht.kin.places .sup) ?_
      rintro o₁ o₂ (⟨rfl, rfl⟩ | ⟨c₁, c₂, q₁, q₂, rfl, rfl, hc⟩)
      · exact Sim.ok ht
      · refine Sim.bind (ht.postfix T.lt₁ hc _) ?_
        intro x y hxy
        exact ih n₂ x y q₁ q₂ (by omega) hxy
    · refine Sim.bind (ht.postfix T.lt₁ hc _) ?_
      intro x y hxy
      exact ih n₂ x y q₁ q₂ (by omega) hxy

variable (S : Twins g call₁ call₂ u₁ u₂ pre r₁ r₂ post row₁ row₂ k₁ k₂)
include S

theorem rule_both (h : Places pre k₁ k₂ p₁ p₂) (hle : p₁ ≤ row₁.length)
    (hd : Balanced d (row₁.drop p₁)) {ru : Rule} (ht : ru.parser.Tame) :
    Sim (ruleParse call₁ g ru row₁ p₁) (ruleParse call₂ g ru row₂ p₂)
      (NodeRead pre k₁ k₂ u₁ u₂ p₁ p₂) := by
  have T := S.rows
  unfold ruleParse
  refine Sim.bind_of (T.spaces (u₁ := u₁) (u₂ := u₂) h) ?_
  rintro ⟨x, q₁⟩ ⟨x', q₂⟩ heq ⟨hx, hq⟩
  obtain ⟨_, -, -, hd1⟩ := (spaces_step (part_self row₁) hle hd).gives _ heq
  refine Sim.bind (token_both S hq hd1 ht) ?_
  rintro o₁ o₂ (⟨rfl, rfl⟩ | ⟨c₁, c₂, m₁, m₂, rfl, rfl, hc⟩)
  · exact Sim.ok (.inl ⟨rfl, rfl⟩)
  · refine Sim.bind (hc _) ?_
    intro t t' hal
    refine Sim.bind (T.spaces (u₁ := u₁) (u₂ := u₂) hal.kin.places) ?_
    rintro ⟨y, m₁'⟩ ⟨y', m₂'⟩ ⟨hy, hm⟩
    refine Sim.bind (Akin.whitespaces T.lt₁ hx hal hy _) ?_
    intro w w' hw
    split
    · refine Sim.bind (T.scripts S.le _ _ _ _ _ _ (by have := S.shorter; omega) hw) ?_
      rintro ⟨z, n₁⟩ ⟨z', n₂⟩ hz
      exact Sim.ok (.inr ⟨_, _, _, _, rfl, rfl, hz⟩)
    · exact Sim.ok (.inr ⟨_, _, _, _, rfl, rfl, hw⟩)

/-- The same rule reads a node in both rows, or no rule does. -/
def RuleRead (pre : Row) (k₁ k₂ : Nat) (u₁ u₂ : SNode) (s₁ s₂ : Nat)
    (o₁ o₂ : Option (SNode × Rule × Nat)) : Prop :=
  (o₁ = none ∧ o₂ = none) ∨ ∃ t₁ t₂ ru p₁ p₂, o₁ = some (t₁, ru, p₁) ∧ o₂ = some (t₂, ru, p₂) ∧
    Akin pre k₁ k₂ u₁ u₂ s₁ s₂ t₁ t₂ p₁ p₂

theorem iter_both (h : Places pre k₁ k₂ p₁ p₂) (hle : p₁ ≤ row₁.length)
    (hd : Balanced d (row₁.drop p₁)) : ∀ {rs : List Rule}, (∀ r ∈ rs, r.parser.Tame) →
    Sim (parseIter call₁ g row₁ p₁ rs) (parseIter call₂ g row₂ p₂ rs)
      (RuleRead pre k₁ k₂ u₁ u₂ p₁ p₂)
  | [], _ => Sim.ok (.inl ⟨rfl, rfl⟩)
  | ru :: rs, ht => by
    unfold parseIter
    refine Sim.bind (rule_both S h hle hd (ht ru (List.mem_cons_self ..))) ?_
    rintro o₁ o₂ (⟨rfl, rfl⟩ | ⟨t₁, t₂, m₁, m₂, rfl, rfl, hc⟩)
    · exact iter_both h hle hd fun r hr => ht r (List.mem_cons_of_mem _ hr)
    · exact Sim.ok (.inr ⟨_, _, _, _, _, rfl, rfl, hc⟩)

theorem can_both (h : Places pre k₁ k₂ p₁ p₂) (hle : p₁ ≤ row₁.length)
    (hd : Balanced d (row₁.drop p₁)) {rs : List Rule} (ht : ∀ r ∈ rs, r.parser.Tame) :
    Sim (canParse call₁ g row₁ p₁ rs) (canParse call₂ g row₂ p₂ rs) fun x y => y = x := by
  unfold canParse
  refine Sim.bind (iter_both S h hle hd ht) ?_
  rintro o₁ o₂ (⟨rfl, rfl⟩ | ⟨t₁, t₂, ru, m₁, m₂, rfl, rfl, hc⟩) <;> exact Sim.ok rfl

theorem either_both (h : Places pre k₁ k₂ p₁ p₂) (hle : p₁ ≤ row₁.length)
    (hd : Balanced d (row₁.drop p₁)) {rs rs' : List Rule} (ht : ∀ r ∈ rs, r.parser.Tame)
    (ht' : ∀ r ∈ rs', r.parser.Tame) :
    Sim (canParseEither call₁ g row₁ p₁ rs rs') (canParseEither call₂ g row₂ p₂ rs rs')
      fun x y => y = x := by
  unfold canParseEither
  refine Sim.bind (can_both S h hle hd ht) ?_
  rintro _ x rfl
  cases x with
  | true => exact Sim.ok rfl
  | false => exact can_both S h hle hd ht'

/-! ## Unknown symbols -/

theorem unknownAtom_both (h : Places pre k₁ k₂ p₁ p₂) (hd : Balanced d (row₁.drop p₁))
    (hn : parseIter call₁ g row₁ p₁ g.atoms = .ok none) {e : Ending} (he : Endings [] d e e)
    (hend : isAtEnd row₁ p₁ e = false) :
    Sim (makeUnknownAtom g row₁ p₁) (makeUnknownAtom g row₂ p₂) fun t t' =>
      Akin pre k₁ k₂ u₁ u₂ p₁ p₂ t t' (p₁ + 1) (p₂ + 1) := by
  have T := S.rows
  unfold makeUnknownAtom
  rw [T.get h]
  cases hg : row₁[p₁]? with
  | none => exact Sim.error
  | some n =>
    simp only [munwrap, M.ok_bind]
    cases n with
    | container _ _ _ => exact Sim.error
    | symbol s =>
      obtain ⟨hlt, he'⟩ := List.getElem?_eq_some_iff.1 hg
      have hdr := List.drop_eq_getElem_cons hlt
      rw [he'] at hdr
      have ho := unknown_ordinary S.tame S.step hdr hd hn he hend
      exact Sim.ok ((T.next h ho hg).leaf _ _ _)

theorem stops_both (h : Places pre k₁ k₂ p₁ p₂) (hle : p₁ ≤ row₁.length)
    (hd : Balanced d (row₁.drop p₁)) (e : Ending) :
    Sim (unknownStops call₁ g row₁ p₁ e) (unknownStops call₂ g row₂ p₂ e) fun x y => y = x := by
  obtain ⟨t1, t2, t3, t4⟩ := ofRole_tame S.tame
  unfold unknownStops
  rw [S.rows.isAtEnd h]
  split
  · exact Sim.ok rfl
  refine Sim.bind (can_both S h hle hd t1) ?_
  rintro _ x rfl
  cases x with
  | true => exact Sim.ok rfl
  | false =>
    refine Sim.bind (can_both S h hle hd t2) ?_
    rintro _ x rfl
    cases x with
    | true => exact Sim.ok rfl
    | false =>
      refine Sim.bind (can_both S h hle hd t3) ?_
      rintro _ x rfl
      cases x with
      | true => exact Sim.ok rfl
      | false => exact can_both S h hle hd t4

theorem unknownLoop_both {e : Ending} (he : Endings [] d e e) :
    ∀ (n₁ n₂ : Nat) (t₁ t₂ : SNode) (p₁ p₂ : Nat), n₁ ≤ n₂ → p₁ ≤ row₁.length →
    Balanced d (row₁.drop p₁) → Akin pre k₁ k₂ u₁ u₂ s₁ s₂ t₁ t₂ p₁ p₂ →
    Sim (unknownLoop call₁ g row₁ e n₁ t₁ p₁) (unknownLoop call₂ g row₂ e n₂ t₂ p₂) fun x y =>
      Akin pre k₁ k₂ u₁ u₂ s₁ s₂ x.1 y.1 x.2 y.2 := by
  intro n₁
  induction n₁ with
  | zero => intros; exact Sim.error
  | succ n₁ ih =>
    intro n₂ t₁ t₂ p₁ p₂ hn hle hd hal
    obtain ⟨n₂, rfl⟩ : ∃ n, n₂ = n + 1 := ⟨n₂ - 1, by omega⟩
    unfold unknownLoop
    refine Sim.bind_of (stops_both S hal.kin.places hle hd e) ?_
    rintro _ x heq rfl
    obtain ⟨_, -, hx⟩ := (stops_step S.tame S.step (part_self row₁) hle hd he).gives _ heq
    cases x with
    | true => exact Sim.ok hal
    | false =>
      obtain ⟨hend, hat⟩ := hx rfl
      refine Sim.bind_of (unknownAtom_both S hal.kin.places hd hat he hend) ?_
      intro y y' heq hy
      obtain ⟨_, -, hle1, hd1⟩ :=
        (unknownAtom_step S.tame S.step (part_self row₁) hd hle hat he hend).gives _ heq
      refine Sim.bind (hal.missingOperator S.rows.lt₁ hy) ?_
      intro z z' hz
      exact ih n₂ z z' _ _ (by omega) hle1 hd1 hz

theorem unknown_both {e : Ending} (he : Endings [] d e e) (h : Places pre k₁ k₂ p₁ p₂)
    (hle : p₁ ≤ row₁.length) (hd : Balanced d (row₁.drop p₁))
    (hat : parseIter call₁ g row₁ p₁ g.atoms = .ok none) (hend : isAtEnd row₁ p₁ e = false) :
    Sim (parseUnknown call₁ g row₁ e p₁) (parseUnknown call₂ g row₂ e p₂) fun x y =>
      Akin pre k₁ k₂ u₁ u₂ p₁ p₂ x.1 y.1 x.2 y.2 := by
  unfold parseUnknown
  refine Sim.bind_of (unknownAtom_both S h hd hat he hend) ?_
  intro y y' heq hy
  obtain ⟨_, -, hle1, hd1⟩ :=
    (unknownAtom_step S.tame S.step (part_self row₁) hd hle hat he hend).gives _ heq
  exact unknownLoop_both S he _ _ _ _ _ _ (by have := S.shorter; omega) hle1 hd1 hy

/-! ## Expressions -/

/-- Both beginnings are finished, or none is. -/
inductive StartAlike (pre : Row) (k₁ k₂ : Nat) (u₁ u₂ : SNode) (s₁ s₂ : Nat) (x y : Start × Nat) :
    Prop
  | left (t t' : SNode) (p p' : Nat) (e : x = (.left t, p)) (e' : y = (.left t', p'))
    (h : Akin pre k₁ k₂ u₁ u₂ s₁ s₂ t t' p p')
  | finished (t t' : SNode) (p p' : Nat) (e : x = (.finished t, p)) (e' : y = (.finished t', p'))
    (h : Akin pre k₁ k₂ u₁ u₂ s₁ s₂ t t' p p')

theorem start_both {e : Ending} (he : Endings [] d e e) (h : Places pre k₁ k₂ p₁ p₂)
    (hle : p₁ ≤ row₁.length) (hd : Balanced d (row₁.drop p₁)) :
    Sim (prattStart call₁ g row₁ e p₁) (prattStart call₂ g row₂ e p₂)
      (StartAlike pre k₁ k₂ u₁ u₂ p₁ p₂) := by
  obtain ⟨t1, t2, t3, t4⟩ := ofRole_tame S.tame
  have hk := S.rows.lt₁
  unfold prattStart
  rw [S.rows.atInputEnd h]
  split
  · refine Sim.bind (h.missingAtom (u₁ := u₁) (u₂ := u₂)) ?_
    intro t t' ht
    exact Sim.ok (.finished _ _ _ _ rfl rfl ht)
  refine Sim.bind_of (iter_both S h hle hd t1) ?_
  rintro o₁ o₂ heq (⟨rfl, rfl⟩ | ⟨t, t', ru, m₁, m₂, rfl, rfl, hop⟩)
  · refine Sim.bind_of (iter_both S h hle hd t2) ?_
    rintro o₁ o₂ hat (⟨rfl, rfl⟩ | ⟨t, t', ru, m₁, m₂, rfl, rfl, hop⟩)
    · refine Sim.bind (either_both S h hle hd t3 t4) ?_
      rintro _ x rfl
      cases x with
      | true =>
        refine Sim.bind (h.missingAtom (u₁ := u₁) (u₂ := u₂)) ?_
        intro t t' ht
        exact Sim.ok (.left _ _ _ _ rfl rfl ht)
      | false =>
        simp only [Bool.false_eq_true, if_false, S.rows.isAtEnd h]
        split
        · refine Sim.bind (h.missingAtom (u₁ := u₁) (u₂ := u₂)) ?_
          intro t t' ht
          exact Sim.ok (.finished _ _ _ _ rfl rfl ht)
        · rename_i hend
          refine Sim.bind (unknown_both S he h hle hd hat (Bool.eq_false_iff.2 hend)) ?_
          intro x y hxy
          exact Sim.ok (.left _ _ _ _ rfl rfl hxy)
    · exact Sim.ok (.left _ _ _ _ rfl rfl hop)
  · obtain ⟨_, -, hst⟩ := (iter_step S.tame S.step (part_self row₁) hle hd t1).gives _ heq
    obtain ⟨hle1, hd1⟩ := hst _ _ _ rfl
    refine Sim.bind (S.both _ _ _ _ _ hop.kin.places hle1 hd1 he) ?_
    rintro ⟨x, q₁⟩ ⟨y, q₂⟩ ⟨hal, hkind⟩
    refine Sim.bind (hop.prefix hk hal _) ?_
    intro z z' hz
    rcases hkind with ⟨t, t', e1, e2⟩ | ⟨t, t', e1, e2⟩ <;> dsimp only at e1 e2 <;> subst e1 e2
    · exact Sim.ok (.finished _ _ _ _ rfl rfl hz)
    · exact Sim.ok (.left _ _ _ _ rfl rfl hz)

/-- see `BothWays` -/
def ResultAlike (pre : Row) (k₁ k₂ : Nat) (u₁ u₂ : SNode) (s₁ s₂ : Nat) (a b : PResult × Nat) :
    Prop :=
  Akin pre k₁ k₂ u₁ u₂ s₁ s₂ a.1.node b.1.node a.2 b.2 ∧
    ((∃ t t', a.1 = .stop t ∧ b.1 = .stop t') ∨ ∃ t t', a.1 = .expression t ∧ b.1 = .expression t')

theorem loop_both {e : Ending} (he : Endings [] d e e) (min : Power) :
    ∀ (n₁ n₂ : Nat) (t₁ t₂ : SNode) (p₁ p₂ : Nat), n₁ ≤ n₂ → p₁ ≤ row₁.length →
    Balanced d (row₁.drop p₁) → Akin pre k₁ k₂ u₁ u₂ s₁ s₂ t₁ t₂ p₁ p₂ →
    Sim (prattLoop call₁ g row₁ min e n₁ t₁ p₁) (prattLoop call₂ g row₂ min e n₂ t₂ p₂)
      (ResultAlike pre k₁ k₂ u₁ u₂ s₁ s₂) := by
  obtain ⟨t1, t2, t3, t4⟩ := ofRole_tame S.tame
  have hk := S.rows.lt₁
  intro n₁
  induction n₁ with
  | zero => intros; exact Sim.error
  | succ n₁ ih =>
    intro n₂ t₁ t₂ p₁ p₂ hn hle hd hal
    obtain ⟨n₂, rfl⟩ : ∃ n, n₂ = n + 1 := ⟨n₂ - 1, by omega⟩
    have h := hal.kin.places
    have hstop : ResultAlike pre k₁ k₂ u₁ u₂ s₁ s₂ (.stop t₁, p₁) (.stop t₂, p₂) :=
      ⟨hal, .inl ⟨_, _, rfl, rfl⟩⟩
    have hexpr : ResultAlike pre k₁ k₂ u₁ u₂ s₁ s₂ (.expression t₁, p₁) (.expression t₂, p₂) :=
      ⟨hal, .inr ⟨_, _, rfl, rfl⟩⟩
    unfold prattLoop
    rw [S.rows.atInputEnd h]
    split
    · exact Sim.ok hstop
    refine Sim.bind_of (iter_both S h hle hd t3) ?_
    rintro o₁ o₂ heq (⟨rfl, rfl⟩ | ⟨t, t', ru, m₁, m₂, rfl, rfl, hop⟩)
    · refine Sim.bind_of (iter_both S h hle hd t4) ?_
      rintro o₁ o₂ heq (⟨rfl, rfl⟩ | ⟨t, t', ru, m₁, m₂, rfl, rfl, hop⟩)
      · refine Sim.bind_of (either_both S h hle hd t1 t2) ?_
        rintro _ x heq rfl
        obtain ⟨_, -, hat⟩ :=
          (either_step S.tame S.step (part_self row₁) hle hd t1 t2).gives _ heq
        cases x with
        | true =>
          simp only [if_true]
          split
          · exact Sim.ok hexpr
          · refine Sim.bind_of (S.both _ _ _ _ _ h hle hd he) ?_
            rintro ⟨x, q₁⟩ ⟨y, q₂⟩ heq ⟨hr, hkind⟩
            obtain ⟨_, -, hle2, hd2, -⟩ := (S.step p₁ d _ _ _ hle hd he).gives _ heq
            refine Sim.bind (hal.missingOperator hk hr) ?_
            intro z z' hz
            rcases hkind with ⟨t, t', e1, e2⟩ | ⟨t, t', e1, e2⟩ <;> dsimp only at e1 e2 <;> subst e1 e2
            · exact Sim.ok ⟨hz, .inl ⟨_, _, rfl, rfl⟩⟩
            · exact ih n₂ z z' _ _ (by omega) hle2 hd2 hz
        | false =>
          simp only [Bool.false_eq_true, if_false, S.rows.isAtEnd h]
          split
          · exact Sim.ok hstop
          · rename_i hend
            have hend := Bool.eq_false_iff.2 hend
            refine Sim.bind_of (unknown_both S he h hle hd (hat rfl) hend) ?_
            rintro ⟨x, q₁⟩ ⟨y, q₂⟩ heq hr
            obtain ⟨_, -, hle2, hd2⟩ := (parseUnknown_step S.tame S.step (part_self row₁) he hle hd
              (hat rfl) hend).gives _ heq
            refine Sim.bind (hal.missingOperator hk hr) ?_
            intro z z' hz
            exact ih n₂ z z' _ _ (by omega) hle2 hd2 hz
      · obtain ⟨_, -, hst⟩ := (iter_step S.tame S.step (part_self row₁) hle hd t4).gives _ heq
        obtain ⟨hle1, hd1⟩ := hst _ _ _ rfl
        dsimp only
        split
        · exact Sim.ok hexpr
        · refine Sim.bind (hal.postfix hk hop _) ?_
          intro z z' hz
          exact ih n₂ z z' _ _ (by omega) hle1 hd1 hz
    · obtain ⟨_, -, hst⟩ := (iter_step S.tame S.step (part_self row₁) hle hd t3).gives _ heq
      obtain ⟨hle1, hd1⟩ := hst _ _ _ rfl
      dsimp only
      split
      · exact Sim.ok hexpr
      · refine Sim.bind_of (S.both _ _ _ _ _ hop.kin.places hle1 hd1 he) ?_
        rintro ⟨x, q₁⟩ ⟨y, q₂⟩ heq ⟨hr, hkind⟩
        obtain ⟨_, -, hle2, hd2, -⟩ := (S.step m₁ d _ _ _ hle1 hd1 he).gives _ heq
        refine Sim.bind (hal.infix hk hop hr _) ?_
        intro z z' hz
        rcases hkind with ⟨t, t', e1, e2⟩ | ⟨t, t', e1, e2⟩ <;> dsimp only at e1 e2 <;> subst e1 e2
        · exact Sim.ok ⟨hz, .inl ⟨_, _, rfl, rfl⟩⟩
        · exact ih n₂ z z' _ _ (by omega) hle2 hd2 hz

theorem body_both : BothWays (prattBody call₁ g) (prattBody call₂ g) u₁ u₂ pre row₁ row₂ k₁ k₂ := by
  intro p₁ p₂ d min e h hle hd he
  unfold prattBody
  refine Sim.bind_of (start_both S he h hle hd) ?_
  rintro ⟨x, q₁⟩ ⟨y, q₂⟩ heq hs
  obtain ⟨_, -, hle1, hd1, -⟩ :=
    (start_step S.tame S.step (part_self row₁) he hle hd).gives _ heq
  cases hs with
  | left t t' p p' e e' ha =>
    cases e
    cases e'
    exact loop_both S he min _ _ _ _ _ _ (by have := S.shorter; omega) hle1 hd1 ha
  | finished t t' p p' e e' ha =>
    cases e
    cases e'
    exact Sim.ok ⟨ha, .inl ⟨_, _, rfl, rfl⟩⟩

end

theorem pratt_twins (T : TwoRows pre r₁ r₂ post row₁ row₂ k₁ k₂) (hg : g.Tame)
    (hlen : row₁.length ≤ row₂.length) (K : Nat)
    (here₁ : ∀ F res p, pratt g F row₁ (pre.length + 1) (0, .weak) (.sym [')']) = .ok (res, p) →
      res.node = u₁ ∧ u₁.lo = pre.length + 1 ∧ u₁.hi = p ∧ p = pre.length + 1 + r₁.length)
    (here₂ : ∀ F, K ≤ F → ∃ res, pratt g F row₂ (pre.length + 1) (0, .weak) (.sym [')']) =
      .ok (res, pre.length + 1 + r₂.length) ∧ res.node = u₂ ∧ u₂.lo = pre.length + 1 ∧
        u₂.hi = pre.length + 1 + r₂.length) :
    ∀ F, BothWays (pratt g F) (pratt g (F + K)) u₁ u₂ pre row₁ row₂ k₁ k₂
  | 0 => fun _ _ _ _ _ _ _ _ _ => Sim.error
  | F + 1 => by
    rw [Nat.add_right_comm]
    exact body_both ⟨T, hg, hlen, pratt_step hg (part_self row₁) F, pratt_mono g (by omega),
      pratt_twins T hg hlen K here₁ here₂ F, here₁ F, here₂ (F + K) (by omega)⟩

/-! ## What is balanced -/

theorem Balanced.append {e : Nat} {r X : Row} (h : Balanced e r) {b : Nat} (hX : Balanced b X) :
    Balanced (e + b) (r ++ X) := by
  induction h with
  | nil => simpa using hX
  | container _ ih => exact .container ih
  | @opening d _ _ ih => exact .opening (by rwa [Nat.add_right_comm] at ih)
  | @closing d _ _ ih => rw [Nat.add_right_comm]; exact .closing ih
  | @quotes d l r hl _ ih =>
    have : Node.symbol ['"'] :: (l.map Node.symbol ++ .symbol ['"'] :: r) ++ X =
        .symbol ['"'] :: (l.map Node.symbol ++ .symbol ['"'] :: (r ++ X)) := by simp
    rw [this]
    exact .quotes hl ih
  | other h1 h2 h3 _ ih => exact .other h1 h2 h3 ih

theorem Balanced.unquote {d : Nat} {l : List Str} {r : Row} (hl : InQuotes l)
    (h : Balanced d (.symbol ['"'] :: (l.map Node.symbol ++ .symbol ['"'] :: r))) :
    Balanced d r := by
  obtain ⟨l', r', hl', he, hr⟩ := h.quote
  have hbody := congrArg stringBody he
  rw [stringBody_quoted hl, stringBody_quoted hl'] at hbody
  subst hbody
  have := List.append_cancel_left he
  injection this with _ h2
  rwa [h2]

theorem Balanced.rest {e : Nat} {r X : Row} (h : Balanced e r) :
    ∀ {b : Nat}, Balanced (e + b) (r ++ X) → Balanced b X := by
  induction h with
  | nil => intro b hb; simpa using hb
  | container _ ih => intro b hb; exact ih hb.container_tail
  | @opening d _ _ ih =>
    intro b hb
    have := hb.open
    rw [Nat.add_right_comm] at this
    exact ih this
  | @closing d _ _ ih =>
    intro b hb
    obtain ⟨d', hd, hr⟩ := hb.close
    obtain rfl : d' = d + b := by omega
    exact ih hr
  | @quotes d l r hl _ ih =>
    intro b hb
    have : Node.symbol ['"'] :: (l.map Node.symbol ++ .symbol ['"'] :: r) ++ X =
        .symbol ['"'] :: (l.map Node.symbol ++ .symbol ['"'] :: (r ++ X)) := by simp
    rw [this] at hb
    exact ih (hb.unquote hl)
  | other h1 h2 h3 _ ih => intro b hb; exact ih (hb.of_ordinary ⟨h1, h2, h3⟩)

theorem balanced_replicate : ∀ {a n : Nat}, Balanced a (List.replicate n (.symbol [')'])) → a = n
  | a, 0, h => by cases h; rfl
  | a, n + 1, h => by
    rw [List.replicate_succ] at h
    obtain ⟨d, rfl, hd⟩ := h.close
    rw [balanced_replicate hd]

/-- How many brackets are open behind the beginning of a row. -/
theorem balanced_behind {n : Nat} {Y : Row} : ∀ (len a : Nat) (pre : Row), pre.length = len →
    Balanced a (pre ++ List.replicate n (.symbol [')'])) →
    (Balanced a (pre ++ Y) ↔ Balanced n Y) := by
  intro len
  induction len using Nat.strongRecOn with
  | _ len ih =>
    intro a pre hlen h
    cases pre with
    | nil => rw [balanced_replicate h]; rfl
    | cons x pre =>
      rw [List.length_cons] at hlen
      cases x with
      | container v c w =>
        have hi := ih pre.length (by omega) a pre rfl h.container_tail
        exact ⟨fun hY => hi.1 hY.container_tail, fun hY => .container (hi.2 hY)⟩
      | symbol s =>
        by_cases h1 : s = ['(']
        · subst h1
          have hi := ih pre.length (by omega) (a + 1) pre rfl h.open
          exact ⟨fun hY => hi.1 hY.open, fun hY => .opening (hi.2 hY)⟩
        by_cases h2 : s = [')']
        · subst h2
          obtain ⟨d, rfl, hd⟩ := h.close
          have hi := ih pre.length (by omega) d pre rfl hd
          refine ⟨fun hY => ?_, fun hY => .closing (hi.2 hY)⟩
          obtain ⟨d', e, hY'⟩ := hY.close
          have e' : d' = d := by omega
          rw [e'] at hY'
          exact hi.1 hY'
        by_cases h3 : s = ['"']
        · subst h3
          have hbef : Before (.symbol ['"'] :: pre) 0 := ⟨Nat.zero_le _, a, n, h⟩
          obtain ⟨l, r', hl, he, -⟩ := hbef.quotes rfl
          replace he : pre = l.map Node.symbol ++ .symbol ['"'] :: r' := by simpa using he
          subst he
          have hass : ∀ Z : Row, Node.symbol ['"'] :: (l.map Node.symbol ++ .symbol ['"'] :: r') ++ Z =
            .symbol ['"'] :: (l.map Node.symbol ++ .symbol ['"'] :: (r' ++ Z)) := by simp
          rw [hass] at h ⊢
          rw [List.length_append, List.length_cons] at hlen
          have hi := ih r'.length (by omega) a r' rfl (h.unquote hl)
          exact ⟨fun hY => hi.1 (hY.unquote hl), fun hY => .quotes hl (hi.2 hY)⟩
        · have hi := ih pre.length (by omega) a pre rfl (h.of_ordinary ⟨h1, h2, h3⟩)
          exact ⟨fun hY => hi.1 (hY.of_ordinary ⟨h1, h2, h3⟩), fun hY => .other h1 h2 h3 (hi.2 hY)⟩

/-- With other brackets in them, rows stay balanced. -/
theorem balanced_swap {n : Nat} (hpre : Balanced 0 (pre ++ List.replicate n (.symbol [')'])))
    (h₁ : Balanced 0 r₁) (h₂ : Balanced 0 r₂)
    (hb : Balanced 0 (pre ++ .symbol ['('] :: (r₁ ++ .symbol [')'] :: post))) :
    Balanced 0 (pre ++ .symbol ['('] :: (r₂ ++ .symbol [')'] :: post)) := by
  have h3 := ((balanced_behind _ 0 pre rfl hpre).1 hb).open
  rw [← Nat.zero_add (n + 1)] at h3
  have h4 := h₂.append (h₁.rest h3)
  rw [Nat.zero_add] at h4
  exact (balanced_behind _ 0 pre rfl hpre).2 (.opening h4)

theorem SNode.Swapped.symm (h : SNode.Swapped k₁ k₂ u₁ u₂ t₁ t₂) :
    SNode.Swapped k₂ k₁ u₂ u₁ t₂ t₁ := by
  induction h with
  | here n => exact .here n
  | inside _ ih => exact .inside ih

end Aftermath

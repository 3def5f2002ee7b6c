import Verif.Proof.Made
import Verif.Proof.NotationRules
import Verif.Spec.Brackets

/-! # The names of brackets in a tree that is read -/

namespace Aftermath

variable {x : Xid} {g : Grammar} {m : NameMap}

/-- All brackets in the tree have the name `13`, the one of round brackets, or `0`, the one of
operators. -/
def BracketsNamed (t : SNode) : Prop := ∀ n u, (bracketsAround n u).PartOf t → n = 13 ∨ n = 0

/-- No operator by itself. -/
def NotOperator : SNode → Prop
  | .leaf n _ _ _ _ => n ≠ 0
  | _ => True

/-- see `BracketsNamed` -/
def CatNamed : Cat → SNode → Prop
  | .expr, t => BracketsNamed t ∧ NotOperator t
  | .core n tp, t => ((∃ m o c, tp = .brackets m o c) → n = 13 ∨ n = 0) →
      BracketsNamed t ∧ (n ≠ 0 → NotOperator t)
  | .tok n tp, t => ((∃ m o c, tp = .brackets m o c) → n = 13 ∨ n = 0) →
      BracketsNamed t ∧ (n ≠ 0 → NotOperator t)
  | .opr _, t => BracketsNamed t

theorem BracketsNamed.leaf {n lo hi : Nat} {ty : LeafType} {ss : List Str} :
    BracketsNamed (.leaf n lo hi ty ss) := by
  intro k u h
  cases h

theorem BracketsNamed.cells {n lo hi w : Nat} {ts : List SNode} :
    BracketsNamed (.newRows n lo hi ts w) := by
  intro k u h
  cases h

theorem BracketsNamed.node {n lo hi : Nat} {cs : List SNode} (h : ∀ c ∈ cs, BracketsNamed c)
    (h' : (n = 13 ∨ n = 0) ∨ ∀ c₀ c₁ c₂, cs = [c₀, c₁, c₂] → NotOperator c₀) :
    BracketsNamed (.children n lo hi cs) := by
  intro k u hp
  cases hp with
  | here =>
    rcases h' with h' | h'
    · exact h'
    · exact absurd rfl (h' _ _ _ rfl)
  | child hc hp => exact h _ hc k u hp

theorem BracketsNamed.two {n lo hi : Nat} {a b : SNode} (ha : BracketsNamed a)
    (hb : BracketsNamed b) : BracketsNamed (.children n lo hi [a, b]) := by
  refine .node ?_ (.inr nofun)
  simp only [List.mem_cons, List.not_mem_nil, or_false, forall_eq_or_imp, forall_eq]
  exact ⟨ha, hb⟩

theorem BracketsNamed.three {n lo hi : Nat} {a b c : SNode} (ha : BracketsNamed a)
    (hb : BracketsNamed b) (hc : BracketsNamed c) (h : (n = 13 ∨ n = 0) ∨ NotOperator a) :
    BracketsNamed (.children n lo hi [a, b, c]) := by
  refine .node ?_ (h.imp id fun h _ _ _ e => ?_)
  · simp only [List.mem_cons, List.not_mem_nil, or_false, forall_eq_or_imp, forall_eq]
    exact ⟨ha, hb, hc⟩
  · cases e
    exact h

theorem wrapSpc_named (S : Std x g m) {row : Row} {a p q b : Nat} {sb sa : Option SNode}
    (hb : Spc g row a p sb) (ha : Spc g row q b sa) {t : SNode} (h : BracketsNamed t) :
    BracketsNamed (wrapSpc g sb t sa a b) := by
  have hb' : ∀ s, sb = some s → BracketsNamed s ∧ NotOperator s := by
    rintro s rfl
    rcases hb with ⟨h, -⟩ | ⟨-, h, -⟩
    · cases h
    · cases h
      refine ⟨.leaf, ?_⟩
      rw [S.builtIn]
      exact nofun
  have ha' : ∀ s, sa = some s → BracketsNamed s := by
    rintro s rfl
    rcases ha with ⟨h, -⟩ | ⟨-, h, -⟩
    · cases h
    · cases h
      exact .leaf
  cases sb with
  | none =>
    cases sa with
    | none => exact h
    | some s => exact .two h (ha' s rfl)
  | some s =>
    obtain ⟨h1, h2⟩ := hb' s rfl
    cases sa with
    | none => exact .two h1 h
    | some s' => exact .three h1 h (ha' s' rfl) (.inr h2)

theorem wrapSpc_notOperator {sb sa : Option SNode} {a b : Nat} {t : SNode} (h : NotOperator t) :
    NotOperator (wrapSpc g sb t sa a b) := by
  cases sb <;> cases sa <;> first | exact h | exact trivial

theorem std_atoms (S : Std x g m) {r : Rule} (hr : r ∈ g.ofRole .atom) :
    r.name ≠ 0 ∧ ((∃ m o c, r.parser = .brackets m o c) → r.name = 13) := by
  have hd : ∀ r ∈ shippedAtoms, r.name ≠ 0 ∧ ((∃ m o c, r.parser = .brackets m o c) → r.name = 13) := by
    simp [shippedAtoms]
  exact hd r (S.atoms ▸ hr)

theorem made_named (S : Std x g m) {k : Cat} {row : Row} {a b : Nat} {t : SNode}
    (h : Made g k row a b t) : CatNamed k t := by
  have hmiss : ∀ a, BracketsNamed (.children g.builtIn.missingToken a a []) :=
    fun a => .node nofun (.inr nofun)
  have hop : g.builtIn.operator = 0 := by rw [S.builtIn]
  induction h with
  | missing h => exact ⟨hmiss _, trivial⟩
  | unknown h =>
    refine ⟨.leaf, ?_⟩
    rw [S.builtIn]
    exact nofun
  | missingOperator _ _ ih1 ih2 => exact ⟨.three ih1.1 (hmiss _) ih2.1 (.inr ih1.2), trivial⟩
  | atom hr _ ih =>
    obtain ⟨h1, h2⟩ := std_atoms S hr
    exact ⟨(ih fun h => .inl (h2 h)).1, (ih fun h => .inl (h2 h)).2 h1⟩
  | «prefix» hr _ _ ih1 ih2 => exact ⟨.two ih1 ih2.1, trivial⟩
  | «infix» hr _ _ _ ih1 ih2 ih3 =>
    exact ⟨.three ih1.1 ih2 ih3.1 (.inr ih1.2), trivial⟩
  | «postfix» hr _ _ ih1 ih2 =>
    exact ⟨.two ih1.1 (ih2 fun _ => .inr hop).1, trivial⟩
  | opr _ ih => exact (ih fun _ => .inr hop).1
  | script _ _ _ hs _ ih1 ih2 =>
    exact .two ih1 (wrapSpc_named S (.inl ⟨rfl, rfl⟩) hs (ih2 nofun).1)
  | tok hb _ _ hs _ ih =>
    intro h
    exact ⟨wrapSpc_named S hb hs (ih h).1, fun hn => wrapSpc_notOperator ((ih h).2 hn)⟩
  | leaf _ _ _ _ _ => exact fun _ => ⟨.leaf, id⟩
  | emptyBrackets _ _ => exact fun _ => ⟨.two .leaf .leaf, fun _ => trivial⟩
  | brackets _ _ _ ih =>
    intro h
    exact ⟨.three .leaf ih.1 .leaf (.inl (h ⟨_, _, _, rfl⟩)), fun _ => trivial⟩
  | container _ _ _ _ _ _ => exact fun _ => ⟨.cells, fun _ => trivial⟩

theorem parse_named (S : Std x g m) {row : Row} {t : SNode} (h : g.parse row = .ok t) :
    BracketsNamed t :=
  (made_named S (made_parse S.good h)).1

end Aftermath

import Verif.Proof.Notation
import Mathlib.Data.List.Basic
import Mathlib.Data.List.OfFn

/-! # A syntax tree says one thing only -/

namespace Aftermath

variable {x : Xid} {g : Grammar} {m : NameMap}

theorem hashGet_entry {α β : Type} [DecidableEq α] {l : List (α × β)} {k : α} {v : β}
    (h : hashGet l k = some v) : (k, v) ∈ l := by
  induction l with
  | nil => cases h
  | cons a l ih =>
    obtain ⟨k', v'⟩ := a
    rw [hashGet] at h
    split at h
    · rename_i hk
      cases h
      rw [hk]
      exact List.mem_cons_self ..
    · exact List.mem_cons_of_mem _ (ih h)

theorem pairs_eq {α : Type} {l : List (α × Nat)} (h : l.Pairwise fun a b => a.2 ≠ b.2) {k k' : α}
    {v : Nat} (hk : (k, v) ∈ l) (hk' : (k', v) ∈ l) : k = k' := by
  induction l with
  | nil => cases hk
  | cons a l ih =>
    rw [List.pairwise_cons] at h
    rcases List.mem_cons.1 hk with rfl | hk1
    · rcases List.mem_cons.1 hk' with he | hk2
      · exact (congrArg Prod.fst he).symm
      · exact absurd rfl (h.1 (k', v) hk2)
    · rcases List.mem_cons.1 hk' with rfl | hk2
      · exact absurd rfl (h.1 (k, v) hk1)
      · exact ih h.2 hk1 hk2

/-- Different names have different numbers. -/
theorem named_eq (S : Std x g m) {p q : String × String} {n : Nat} (h : IsNamed m p n)
    (h' : IsNamed m q n) : p = q := by
  have h1 := hashGet_entry h
  have h2 := hashGet_entry h'
  have hp := pairs_eq S.pairs h1 h2
  simp only [List.cons.injEq, and_true, String.toList_inj] at hp
  exact Prod.ext hp.1 hp.2

theorem clash (S : Std x g m) {p q : String × String} {n : Nat} (h : IsNamed m p n)
    (h' : IsNamed m q n) (hpq : p ≠ q) : False := hpq (named_eq S h h')

theorem BinOp.path_inj {o o' : BinOp} (h : o.path = o'.path) : o = o' := by
  revert o o'; intro o o'; cases o <;> cases o' <;> first | (intro _; rfl) | (intro h; revert h; decide +kernel)

theorem PreOp.path_inj {o o' : PreOp} (h : o.path = o'.path) : o = o' := by
  revert h; cases o <;> cases o' <;> decide +kernel

theorem ScriptKind.path_inj {o o' : ScriptKind} (h : o.path = o'.path) : o = o' := by
  revert h; cases o <;> cases o' <;> decide +kernel

theorem PostOp.path_inj {o o' : PostOp} (h : o.path = o'.path) : o = o' := by
  revert h; cases o <;> cases o' <;> decide +kernel

theorem Constant.path_inj {o o' : Constant} (h : o.path = o'.path) : o = o' := by
  revert h; cases o <;> cases o' <;> decide +kernel

/-- A number for every kind of name that is told apart below. -/
def slot (p : String × String) : Nat :=
  if p ∈ [("Arithmetic", "Add"), ("Arithmetic", "Subtract")] then 1
  else if p ∈ [("Calculus", "Sum"), ("Calculus", "Integral"), ("Calculus", "Lim"),
    ("Calculus", "LimSup"), ("Calculus", "LimInf")] then 2
  else if p ∈ [("Arithmetic", "Factorial"), ("Arithmetic", "Exponent")] then 3
  else if p ∈ [("BuiltIn", "Sup"), ("BuiltIn", "Sub")] then 4
  else if p = ("Function", "FunctionApplication") then 6
  else if p = ("Core", "RoundBrackets") then 7
  else if p = ("BuiltIn", "Whitespaces") then 8
  else if p = ("BuiltIn", "Whitespace") then 9
  else if p = ("Arithmetic", "Number") then 10
  else if p = ("Core", "Variable") then 11
  else if p = ("String", "String") then 12
  else if p = ("BuiltIn", "Fraction") then 13
  else if p = ("BuiltIn", "Root") then 14
  else if p = ("BuiltIn", "Table") then 15
  else if p ∈ [("Calculus", "Infinity"), ("Logic", "True"), ("Logic", "False")] then 16
  else if p = ("BuiltIn", "Operator") then 17
  else 18

theorem BinOp.slot_eq (o : BinOp) : slot o.path = 1 ∨ slot o.path = 18 := by cases o <;> decide +kernel
theorem PreOp.slot_eq (o : PreOp) : slot o.path = 1 ∨ slot o.path = 2 := by cases o <;> decide +kernel
theorem ScriptKind.slot_eq (k : ScriptKind) : slot k.path = 4 := by cases k <;> decide +kernel
theorem PostOp.slot_eq (o : PostOp) : slot o.path = 3 := by cases o <;> decide +kernel
theorem Constant.slot_eq (k : Constant) : slot k.path = 16 := by cases k <;> decide +kernel

/-- Two paths are different, whatever operators they belong to. -/
local macro "paths" : tactic => `(tactic|
  (intro hcl
   have hcl := congrArg slot hcl
   first
   | (revert hcl; decide +kernel)
   | (rw [ScriptKind.slot_eq, PostOp.slot_eq] at hcl; cases hcl)
   | (rw [PostOp.slot_eq, ScriptKind.slot_eq] at hcl; cases hcl)
   | (rw [PostOp.slot_eq] at hcl; revert hcl; decide +kernel)
   | (rw [ScriptKind.slot_eq] at hcl; revert hcl; decide +kernel)
   | (rw [Constant.slot_eq] at hcl; revert hcl; decide +kernel)
   | (rcases PreOp.slot_eq _ with hb | hb <;> rw [hb] at hcl <;> clear hb <;>
      first
      | (revert hcl; decide +kernel)
      | (rw [PostOp.slot_eq] at hcl; cases hcl)
      | (rw [ScriptKind.slot_eq] at hcl; cases hcl))
   | (rcases BinOp.slot_eq _ with hb | hb <;> rw [hb] at hcl <;> clear hb <;> revert hcl <;> decide +kernel)))

/-! ## What is between the spaces -/

/-- The node is neither a space nor something with spaces around it. -/
def Solid (m : NameMap) (t : SNode) : Prop :=
  ¬ IsSpace m t ∧ ∀ n lo hi cs, t = .children n lo hi cs → ¬ IsNamed m ("BuiltIn", "Whitespaces") n

theorem middle_unique {m : NameMap} {a b : SNode} (ha : ¬ IsSpace m a) (hb : ¬ IsSpace m b) :
    ∀ {before before' after after' : List SNode}, before ++ a :: after = before' ++ b :: after' →
      (∀ s ∈ before ++ after, IsSpace m s) → (∀ s ∈ before' ++ after', IsSpace m s) → a = b
  | [], [], _, _, h, _, _ => (List.cons.inj h).1
  | [], c :: _, _, _, h, _, h2 => by
    obtain ⟨rfl, -⟩ := List.cons.inj h
    exact absurd (h2 a (by simp)) ha
  | c :: _, [], _, _, h, h1, _ => by
    obtain ⟨rfl, -⟩ := List.cons.inj h
    exact absurd (h1 _ (by simp)) hb
  | c :: before, c' :: before', after, after', h, h1, h2 => by
    obtain ⟨-, h⟩ := List.cons.inj h
    exact middle_unique ha hb h (fun s hs => h1 s (List.mem_cons_of_mem _ hs))
      (fun s hs => h2 s (List.mem_cons_of_mem _ hs))

theorem spaced_unique {a b t : SNode} (ha : Solid m a) (hb : Solid m b) (h : Spaced m a t)
    (h' : Spaced m b t) : a = b := by
  cases h with
  | none =>
    cases h' with
    | none => rfl
    | some hn _ _ => exact absurd hn (ha.2 _ _ _ _ rfl)
  | some hn hc hs =>
    cases h' with
    | none => exact absurd hn (hb.2 _ _ _ _ rfl)
    | some _ hc' hs' => exact middle_unique ha.1 hb.1 (hc.symm.trans hc') hs hs'

theorem solid_leaf (S : Std x g m) {k lo hi : Nat} {ty : LeafType} {ss : List Str}
    (hk : IsNamed m ("BuiltIn", "Operator") k) : Solid m (.leaf k lo hi ty ss) := by
  refine ⟨?_, nofun⟩
  rintro ⟨k', _, _, _, _, h, hk'⟩
  cases h
  exact clash S hk hk' (by paths)

theorem solid_rows {k lo hi w : Nat} {ts : List SNode} : Solid m (.newRows k lo hi ts w) :=
  ⟨(by rintro ⟨_, _, _, _, _, h, _⟩; cases h), nofun⟩

theorem solid_children (S : Std x g m) {k lo hi : Nat} {ts : List SNode}
    (hk : IsNamed m ("BuiltIn", "Operator") k) : Solid m (.children k lo hi ts) := by
  refine ⟨(by rintro ⟨_, _, _, _, _, h, _⟩; cases h), ?_⟩
  rintro _ _ _ _ h hn
  cases h
  exact clash S hk hn (by paths)

theorem script_unique {y z t : SNode} (h : IsScript m y t) (h' : IsScript m z t) :
    y = z := by
  obtain ⟨_, _, _, _, hs, hk⟩ := h
  obtain ⟨_, _, _, _, hs', hk'⟩ := h'
  have := spaced_unique solid_rows solid_rows hs hs'
  injection this with _ _ _ h
  exact (List.cons.inj h).1

/-- A sign is not something with a script. -/
theorem sign_not_sub (S : Std x g m) {s : List Char} {q lo hi : Nat} {cs : List SNode}
    {p : String × String} (h : IsSign m s (.children q lo hi cs)) (hq : IsNamed m p q)
    (hp : p ≠ ("BuiltIn", "Whitespaces")) : False := by
  obtain ⟨_, _, _, _, hs, hk⟩ := h
  cases hs with
  | some hn _ _ => exact clash S hq hn hp

/-- An operator has one list of scripts. -/
theorem op_unique (S : Std x g m) {s s' : List Char} {ss ss' : List (ScriptKind × SNode)} {t : SNode}
    (h : IsOp m s ss t) (h' : IsOp m s' ss' t) : ss = ss' := by
  induction h generalizing ss' with
  | sign h =>
    cases h' with
    | sign => rfl
    | @script ss _ k _ _ _ _ _ _ _ hn => exact (sign_not_sub S h hn (by cases k <;> decide +kernel)).elim
  | @script ss _ k _ _ _ _ _ _ _ hn hs he ih =>
    cases h' with
    | sign h' => exact (sign_not_sub S h' hn (by cases k <;> decide +kernel)).elim
    | script h' hn' hs' he' =>
      rw [he, he', ih h', script_unique hs hs', ScriptKind.path_inj (named_eq S hn hn')]

theorem ops_unique {n n' : Nat} {ks : Fin n → ScriptKind} {ks' : Fin n' → ScriptKind}
    {ts : Fin n → SNode} {ts' : Fin n' → SNode} {ss : Fin n → Formula} {ss' : Fin n' → Formula}
    (h : List.ofFn (fun i => (ks i, ts i)) = List.ofFn (fun i => (ks' i, ts' i)))
    (ih : ∀ i e', Conveys m (ts i) e' → ss i = e') (hs : ∀ i, Conveys m (ts' i) (ss' i)) :
    n = n' ∧ HEq ks ks' ∧ HEq ss ss' := by
  have hlen := congrArg List.length h
  simp only [List.length_ofFn] at hlen
  subst hlen
  have h1 := List.ofFn_injective h
  refine ⟨rfl, heq_of_eq (funext fun i => (Prod.mk.inj (congrFun h1 i)).1), heq_of_eq (funext fun i => ?_)⟩
  refine ih i _ ?_
  rw [(Prod.mk.inj (congrFun h1 i)).2]
  exact hs i

theorem escapes_unique {s s' t : List Char} (h : Escapes s t) (h' : Escapes s' t) : s = s' := by
  induction h generalizing s' with
  | nil => cases h'; rfl
  | plain h1 h2 _ ih =>
    cases h' with
    | plain _ _ h' => rw [ih h']
    | escaped _ => exact absurd rfl h2
  | escaped _ ih =>
    cases h' with
    | plain _ h2 _ => exact absurd rfl h2
    | escaped h' => rw [ih h']

theorem chars_inj {s s' : List Char} (h : (s.map fun c => [c]) = s'.map fun c => [c]) : s = s' :=
  List.map_injective_iff.2 (fun _ _ h => (List.cons.inj h).1) h

theorem conveys_not_space (S : Std x g m) {t : SNode} {e : Formula} (h : Conveys m t e) :
    ¬ IsSpace m t := by
  rintro ⟨_, _, _, _, _, rfl, hk⟩
  cases h with
  | number hn => exact clash S hn hk (by paths)
  | «variable» hn => exact clash S hn hk (by paths)
  | constant hn => exact clash S hn hk (by paths)
  | string hn => exact clash S hn hk (by paths)

theorem conveys_unique (S : Std x g m) {t : SNode} {e e' : Formula} (h : Conveys m t e)
    (h' : Conveys m t e') : e = e' := by
  induction h generalizing e' with
  | @number n lo hi ty ss s hn hs =>
    cases h' with
    | number _ hs' => rw [chars_inj (hs.symm.trans hs')]
    | _ => exact (clash S hn ‹IsNamed m _ n› (by paths)).elim
  | @«variable» n lo hi ty ss s hn hs =>
    cases h' with
    | «variable» _ hs' => rw [chars_inj (hs.symm.trans hs')]
    | _ => exact (clash S hn ‹IsNamed m _ n› (by paths)).elim
  | @constant n lo hi ty ss k hn _ =>
    cases h' with
    | constant hn' => rw [Constant.path_inj (named_eq S hn hn')]
    | _ => exact (clash S hn ‹IsNamed m _ n› (by paths)).elim
  | @string n lo hi ty ss s t hn ht hs =>
    cases h' with
    | @string _ _ _ _ _ s' t' _ ht' hs' =>
      have h1 := (List.cons.inj (hs.symm.trans hs')).2
      have h2 := chars_inj (List.append_cancel_right h1)
      subst h2
      rw [escapes_unique ht ht']
    | _ => exact (clash S hn ‹IsNamed m _ n› (by paths)).elim
  | @bin n lo hi y op z o k ks ss ts a b hn hop _ ha hb ihs iha ihb =>
    cases h' with
    | bin hn' hop' hs' ha' hb' =>
      obtain ⟨rfl, h1, h2⟩ := ops_unique (op_unique S hop hop') (fun i _ => ihs i) hs'
      rw [BinOp.path_inj (named_eq S hn hn'), iha ha', ihb hb', eq_of_heq h1, eq_of_heq h2]
    | _ => exact (clash S hn ‹IsNamed m _ n› (by paths)).elim
  | @pre n lo hi op y o k ks ss ts a hn hop _ ha ihs iha =>
    cases h' with
    | pre hn' hop' hs' ha' =>
      obtain ⟨rfl, h1, h2⟩ := ops_unique (op_unique S hop hop') (fun i _ => ihs i) hs'
      rw [PreOp.path_inj (named_eq S hn hn'), iha ha', eq_of_heq h1, eq_of_heq h2]
    | apply hn' => exact (clash S hn hn' (by paths)).elim
    | call hn' => exact (clash S hn hn' (by paths)).elim
    | _ => exact (clash S hn ‹IsNamed m _ n› (by paths)).elim
  | @post n lo hi y op o a hn _ ha iha =>
    cases h' with
    | post hn' _ ha' => rw [PostOp.path_inj (named_eq S hn hn'), iha ha']
    | pre hn' => exact (clash S hn hn' (by paths)).elim
    | apply hn' => exact (clash S hn hn' (by paths)).elim
    | call hn' => exact (clash S hn hn' (by paths)).elim
    | _ => exact (clash S hn ‹IsNamed m _ n› (by paths)).elim
  | @script n lo hi y s z k a b hn hs ha hb iha ihb =>
    cases h' with
    | script hn' hs' ha' hb' =>
      cases script_unique hs hs'
      rw [ScriptKind.path_inj (named_eq S hn hn'), iha ha', ihb hb']
    | pre hn' => exact (clash S hn hn' (by paths)).elim
    | apply hn' => exact (clash S hn hn' (by paths)).elim
    | call hn' => exact (clash S hn hn' (by paths)).elim
    | _ => exact (clash S hn ‹IsNamed m _ n› (by paths)).elim
  | @apply n lo hi y k lo' hi' l z r s a b hn hk _ _ hs ha hb iha ihb =>
    cases h' with
    | apply _ hk' _ _ hs' ha' hb' =>
      have := spaced_unique (solid_children S hk) (solid_children S hk') hs hs'
      cases this
      rw [iha ha', ihb hb']
    | call _ hk' _ _ hs' ha' =>
      have := spaced_unique (solid_children S hk) (solid_children S hk') hs hs'
      cases this
    | pre hn' => exact (clash S hn hn' (by paths)).elim
    | post hn' => exact (clash S hn hn' (by paths)).elim
    | script hn' => exact (clash S hn hn' (by paths)).elim
    | unit hn' => exact (clash S hn hn' (by paths)).elim
    | spaces hn' => exact (clash S hn hn' (by paths)).elim
  | @call n lo hi y k lo' hi' l r s a hn hk _ _ hs ha iha =>
    cases h' with
    | apply _ hk' _ _ hs' ha' hb' =>
      have := spaced_unique (solid_children S hk) (solid_children S hk') hs hs'
      cases this
    | call _ hk' _ _ hs' ha' => rw [iha ha']
    | pre hn' => exact (clash S hn hn' (by paths)).elim
    | post hn' => exact (clash S hn hn' (by paths)).elim
    | script hn' => exact (clash S hn hn' (by paths)).elim
    | unit hn' => exact (clash S hn hn' (by paths)).elim
    | spaces hn' => exact (clash S hn hn' (by paths)).elim
  | @unit n lo hi l r hn _ _ =>
    cases h' with
    | unit => rfl
    | pre hn' => exact (clash S hn hn' (by paths)).elim
    | apply hn' => exact (clash S hn hn' (by paths)).elim
    | call hn' => exact (clash S hn hn' (by paths)).elim
    | _ => exact (clash S hn ‹IsNamed m _ n› (by paths)).elim
  | @fraction n lo hi y z w a b hn ha hb iha ihb =>
    cases h' with
    | fraction hn' ha' hb' => rw [iha ha', ihb hb']
    | _ => exact (clash S hn ‹IsNamed m _ n› (by paths)).elim
  | @root n lo hi y z w a b hn ha hb iha ihb =>
    cases h' with
    | root hn' ha' hb' => rw [iha ha', ihb hb']
    | _ => exact (clash S hn ‹IsNamed m _ n› (by paths)).elim
  | @table n lo hi w k ts cells ts' hn hts _ ih =>
    cases h' with
    | @table _ _ _ _ k' _ cells' ts'' hn' hts' hc' =>
      have hlen := congrArg List.length (hts.symm.trans hts')
      simp only [List.length_ofFn] at hlen
      subst hlen
      have := List.ofFn_injective (hts.symm.trans hts')
      subst this
      rw [funext fun i => ih i (hc' i)]
    | _ => exact (clash S hn ‹IsNamed m _ n› (by paths)).elim
  | @brackets n lo hi l y r a hn _ _ ha iha =>
    cases h' with
    | brackets hn' _ _ ha' => exact iha ha'
    | _ => exact (clash S hn ‹IsNamed m _ n› (by paths)).elim
  | @spaces n lo hi cs before y after a hn hc hs ha iha =>
    cases h' with
    | spaces hn' hc' hs' ha' =>
      cases middle_unique (conveys_not_space S ha) (conveys_not_space S ha') (hc.symm.trans hc') hs hs'
      exact iha ha'
    | pre hn' => exact (clash S hn hn' (by paths)).elim
    | bin hn' => exact (clash S hn hn' (by paths)).elim
    | apply hn' => exact (clash S hn hn' (by paths)).elim
    | call hn' => exact (clash S hn hn' (by paths)).elim
    | _ => exact (clash S hn ‹IsNamed m _ n› (by paths)).elim

end Aftermath

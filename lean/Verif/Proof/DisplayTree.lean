import Verif.Proof.Display
import Verif.Spec.Display

/-! # Reading printed syntax trees back -/

namespace Aftermath

/-- Text without some characters, up to the first of them. -/
theorem span_inj {P : Char → Prop} : ∀ {s s' r r' : Str}, (∀ c ∈ s, ¬ P c) → (∀ c ∈ s', ¬ P c) →
    (∃ c cs, r = c :: cs ∧ P c) → (∃ c cs, r' = c :: cs ∧ P c) → s ++ r = s' ++ r' → s = s' ∧ r = r'
  | [], [], _, _, _, _, _, _, h => ⟨rfl, h⟩
  | [], c :: cs, _, _, _, h2, ⟨d, ds, rfl, hd⟩, _, h => by
    cases h
    exact absurd hd (h2 _ (List.mem_cons_self))
  | c :: cs, [], _, _, h1, _, _, ⟨d, ds, rfl, hd⟩, h => by
    cases h
    exact absurd hd (h1 _ (List.mem_cons_self))
  | c :: cs, c' :: cs', _, _, h1, h2, hr, hr', h => by
    simp only [List.cons_append, List.cons.injEq] at h
    obtain ⟨rfl, h⟩ := h
    obtain ⟨rfl, rfl⟩ := span_inj (fun d hd => h1 d (List.mem_cons_of_mem _ hd))
      (fun d hd => h2 d (List.mem_cons_of_mem _ hd)) hr hr' h
    exact ⟨rfl, rfl⟩

/-- The characters that end a part of a name. -/
def EndsPart (c : Char) : Prop := c = ':' ∨ c = ' ' ∨ c = ')'

/-- The characters that end a name. -/
def EndsName (r : Str) : Prop := ∃ c cs, r = c :: cs ∧ (c = ' ' ∨ c = ')')

theorem partsTail_starts (l : List Str) {r : Str} (hr : EndsName r) :
    ∃ c cs, (l.flatMap fun v => "::".toList ++ v) ++ r = c :: cs ∧ EndsPart c := by
  cases l with
  | nil =>
    obtain ⟨c, cs, rfl, h⟩ := hr
    exact ⟨c, cs, rfl, h.elim (fun h => .inr (.inl h)) fun h => .inr (.inr h)⟩
  | cons x xs => exact ⟨':', _, rfl, .inl rfl⟩

theorem partsTail_inj : ∀ {l l' : List Str} {r r' : Str}, (∀ s ∈ l, ∀ c ∈ s, ¬ EndsPart c) →
    (∀ s ∈ l', ∀ c ∈ s, ¬ EndsPart c) → EndsName r → EndsName r' →
    (l.flatMap fun v => "::".toList ++ v) ++ r = (l'.flatMap fun v => "::".toList ++ v) ++ r' →
    l = l' ∧ r = r'
  | [], [], _, _, _, _, _, _, h => ⟨rfl, h⟩
  | [], x :: xs, _, _, _, _, ⟨c, cs, rfl, hc⟩, _, h => by
    exfalso
    have : c = ':' := by
      have := congrArg List.head? h
      simpa using this
    subst this
    rcases hc with hc | hc <;> exact absurd hc (by decide)
  | x :: xs, [], _, _, _, _, _, ⟨c, cs, rfl, hc⟩, h => by
    exfalso
    have : c = ':' := by
      have := congrArg List.head? h
      simpa using this.symm
    subst this
    rcases hc with hc | hc <;> exact absurd hc (by decide)
  | x :: xs, y :: ys, r, r', h1, h2, hr, hr', h => by
    simp only [List.flatMap_cons, List.append_assoc, List.append_cancel_left_eq] at h
    obtain ⟨rfl, h'⟩ := span_inj (h1 _ (List.mem_cons_self)) (h2 _ (List.mem_cons_self))
      (partsTail_starts _ hr) (partsTail_starts _ hr') h
    obtain ⟨rfl, rfl⟩ := partsTail_inj (fun s hs => h1 s (List.mem_cons_of_mem _ hs))
      (fun s hs => h2 s (List.mem_cons_of_mem _ hs)) hr hr' h'
    exact ⟨rfl, rfl⟩

theorem displayName_inj {m : NameMap} (hm : m.Clear) {n n' : Nat} (hn : m.getReverse n ≠ none)
    (hn' : m.getReverse n' ≠ none) {r r' : Str} (hr : EndsName r) (hr' : EndsName r')
    (h : displayName m n ++ r = displayName m n' ++ r') : n = n' ∧ r = r' := by
  obtain ⟨p, hp⟩ := Option.ne_none_iff_exists'.1 hn
  obtain ⟨p', hp'⟩ := Option.ne_none_iff_exists'.1 hn'
  simp only [displayName, hp, hp', PathId.display] at h
  have hc := hm.parts n p hp
  have hc' := hm.parts n' p' hp'
  have hends : ∀ {c : Char}, (c ≠ ':' ∧ c ≠ ' ' ∧ c ≠ ')') → ¬ EndsPart c := by
    rintro c ⟨h1, h2, h3⟩ (h | h | h) <;> contradiction
  cases p with
  | nil => exact absurd rfl hc.1
  | cons x xs =>
    cases p' with
    | nil => exact absurd rfl hc'.1
    | cons y ys =>
      simp only [printSeparated, List.append_assoc] at h
      obtain ⟨rfl, h'⟩ := span_inj (P := EndsPart)
        (fun c hh => hends (hc.2 _ (List.mem_cons_self) c hh))
        (fun c hh => hends (hc'.2 _ (List.mem_cons_self) c hh))
        (partsTail_starts _ hr) (partsTail_starts _ hr') h
      obtain ⟨rfl, rfl⟩ := partsTail_inj
        (fun s hs c hh => hends (hc.2 s (List.mem_cons_of_mem _ hs) c hh))
        (fun s hs c hh => hends (hc'.2 s (List.mem_cons_of_mem _ hs) c hh)) hr hr' h'
      exact ⟨hm.unique n n' _ hp hp', rfl⟩

theorem flatMap_printEscaped (ss : List Str) : ss.flatMap printEscaped = printEscaped ss.flatten := by
  induction ss with
  | nil => rfl
  | cons s ss ih => simp only [List.flatMap_cons, ih, printEscaped, List.flatten_cons, List.flatMap_append]

/-- What comes after the name of a node. -/
inductive Tail (m : NameMap) : SNode → Str → Prop
  | leaf {n lo hi ty ss} : Tail m (.leaf n lo hi ty ss) (' ' :: '"' :: (printEscaped ss.flatten ++ ['"', ')']))
  | newRows {n lo hi ts w size cs} (h : printSize ts.length w = .ok size)
      (hc : treesDisplay m ts = .ok cs) : Tail m (.newRows n lo hi ts w) (' ' :: (size ++ cs ++ [')']))
  | children {n lo hi cs s} (h : treesDisplay m cs = .ok s) : Tail m (.children n lo hi cs) (s ++ [')'])

theorem treesDisplay_cases {m : NameMap} {ts : List SNode} {s : Str} (h : treesDisplay m ts = .ok s) :
    (ts = [] ∧ s = []) ∨ ∃ x, s = ' ' :: '(' :: x := by
  cases ts with
  | nil => rw [treesDisplay] at h; cases h; exact .inl ⟨rfl, rfl⟩
  | cons t ts =>
    rw [treesDisplay] at h
    obtain ⟨a, ha, h1⟩ := M.bind_eq_ok.1 h
    obtain ⟨b, hb, h2⟩ := M.bind_eq_ok.1 h1
    cases h2
    refine .inr ?_
    cases t with
    | newRows n lo hi cells w =>
      rw [SNode.display] at ha
      split at ha
      · cases ha; exact ⟨_, rfl⟩
      · obtain ⟨x, hx, h3⟩ := M.bind_eq_ok.1 ha
        obtain ⟨y, hy, h4⟩ := M.bind_eq_ok.1 h3
        cases h4; exact ⟨_, rfl⟩
    | children n lo hi cs =>
      rw [SNode.display] at ha
      obtain ⟨x, hx, h3⟩ := M.bind_eq_ok.1 ha
      cases h3; exact ⟨_, rfl⟩
    | leaf n lo hi ty ss =>
      rw [SNode.display] at ha
      cases ha; exact ⟨_, rfl⟩

theorem Tail.ends {m : NameMap} {t : SNode} {s r : Str} (h : Tail m t s) : EndsName (s ++ r) := by
  cases h with
  | leaf => exact ⟨' ', _, rfl, .inl rfl⟩
  | newRows => exact ⟨' ', _, rfl, .inl rfl⟩
  | children h =>
    rcases treesDisplay_cases h with ⟨-, rfl⟩ | ⟨x, rfl⟩
    · exact ⟨')', _, rfl, .inr rfl⟩
    · exact ⟨' ', _, rfl, .inl rfl⟩

theorem display_tail {m : NameMap} {t : SNode} (hp : Printable m t) {a : Str} (h : t.display m = .ok a) :
    m.getReverse t.name ≠ none ∧ ∃ s, a = '(' :: (displayName m t.name ++ s) ∧ Tail m t s := by
  cases t with
  | newRows n lo hi cells w =>
    rw [Printable] at hp
    rw [SNode.display] at h
    split at h
    · rename_i he
      exact absurd (List.isEmpty_iff.1 he) hp.2.1
    · obtain ⟨x, hx, h3⟩ := M.bind_eq_ok.1 h
      obtain ⟨y, hy, h4⟩ := M.bind_eq_ok.1 h3
      cases h4
      exact ⟨hp.1, _, rfl, .newRows hx hy⟩
  | children n lo hi cs =>
    rw [Printable] at hp
    rw [SNode.display] at h
    obtain ⟨x, hx, h3⟩ := M.bind_eq_ok.1 h
    cases h3
    exact ⟨hp.1, x ++ [')'], by simp [SNode.name], .children hx⟩
  | leaf n lo hi ty ss =>
    rw [Printable] at hp
    rw [SNode.display] at h
    cases h
    exact ⟨hp, _, by simp [SNode.name, flatMap_printEscaped], .leaf⟩

theorem noDigit_trees {m : NameMap} {ts : List SNode} {a r : Str} (h : treesDisplay m ts = .ok a) :
    NoDigit (a ++ ')' :: r) := by
  rcases treesDisplay_cases h with ⟨-, rfl⟩ | ⟨x, rfl⟩ <;> exact noDigit_cons (by decide)

/-- The size of a grid starts with a digit. -/
theorem printSize_starts {n w : Nat} {a : Str} (h : printSize n w = .ok a) :
    ∃ c cs, a = c :: cs ∧ c ≠ '"' ∧ c ≠ '(' := by
  unfold printSize at h
  split at h
  · cases h
  · cases h
    cases hd : natDigits w with
    | nil => exact absurd hd (by simp [natDigits])
    | cons c cs =>
      have := natDigits_isDigit (n := w) (c := c) (by rw [hd]; simp)
      refine ⟨c, _, rfl, ?_, ?_⟩ <;> (rintro rfl; simp at this)

mutual
theorem display_inj {m : NameMap} (hm : m.Clear) : ∀ {t t' : SNode} {a a' r r' : Str},
    Printable m t → Printable m t' → t.display m = .ok a → t'.display m = .ok a' →
    a ++ r = a' ++ r' → SameTree t t' ∧ r = r'
  | t, t', a, a', r, r', hp, hp', h, h', he => by
    obtain ⟨hn, s, rfl, hs⟩ := display_tail hp h
    obtain ⟨hn', s', rfl, hs'⟩ := display_tail hp' h'
    simp only [List.cons_append, List.append_assoc, List.cons.injEq, true_and] at he
    obtain ⟨hname, he⟩ := displayName_inj hm hn hn' hs.ends hs'.ends he
    match t, t', hs, hs' with
    | .leaf n lo hi ty ss, .leaf n' lo' hi' ty' ss', .leaf, .leaf =>
      simp only [List.cons_append, List.append_assoc, List.cons.injEq, true_and,
        List.nil_append] at he
      obtain ⟨h1, h2⟩ := printEscaped_inj he
      simp only [List.cons.injEq, true_and] at h2
      exact ⟨by rw [SameTree]; exact ⟨hname, h1⟩, h2⟩
    | .newRows n lo hi ts w, .newRows n' lo' hi' ts' w', .newRows hz hc, .newRows hz' hc' =>
      simp only [List.cons_append, List.append_assoc, List.cons.injEq, true_and,
        List.nil_append] at he
      obtain ⟨h1, h2⟩ := printSize_inj hz hz' (noDigit_trees hc) (noDigit_trees hc') he
      rw [Printable] at hp hp'
      obtain ⟨h3, h4⟩ := treesDisplay_inj hm hp.2.2 hp'.2.2 hc hc' h2
      exact ⟨by rw [SameTree]; exact ⟨hname, h1, h3⟩, h4⟩
    | .children n lo hi cs, .children n' lo' hi' cs', .children hc, .children hc' =>
      simp only [List.append_assoc, List.cons_append, List.nil_append] at he
      rw [Printable] at hp hp'
      obtain ⟨h3, h4⟩ := treesDisplay_inj hm hp.2 hp'.2 hc hc' he
      exact ⟨by rw [SameTree]; exact ⟨hname, h3⟩, h4⟩
    | _, _, .leaf, .newRows hz hc =>
      exfalso
      obtain ⟨c, cs, rfl, h1, h2⟩ := printSize_starts hz
      simp only [List.cons_append, List.cons.injEq, true_and] at he
      exact h1 he.1.symm
    | _, _, .newRows hz hc, .leaf =>
      exfalso
      obtain ⟨c, cs, rfl, h1, h2⟩ := printSize_starts hz
      simp only [List.cons_append, List.cons.injEq, true_and] at he
      exact h1 he.1
    | _, _, .leaf, .children hc =>
      exfalso
      rcases treesDisplay_cases hc with ⟨-, rfl⟩ | ⟨x, rfl⟩ <;> simp at he
    | _, _, .children hc, .leaf =>
      exfalso
      rcases treesDisplay_cases hc with ⟨-, rfl⟩ | ⟨x, rfl⟩ <;> simp at he
    | _, _, .newRows hz hc', .children hc =>
      exfalso
      obtain ⟨c, cs, rfl, h1, h2⟩ := printSize_starts hz
      rcases treesDisplay_cases hc with ⟨-, rfl⟩ | ⟨x, rfl⟩
      · simp at he
      · simp only [List.cons_append, List.cons.injEq, true_and] at he
        exact h2 he.1
    | _, _, .children hc, .newRows hz hc' =>
      exfalso
      obtain ⟨c, cs, rfl, h1, h2⟩ := printSize_starts hz
      rcases treesDisplay_cases hc with ⟨-, rfl⟩ | ⟨x, rfl⟩
      · simp at he
      · simp only [List.cons_append, List.cons.injEq, true_and] at he
        exact h2 he.1.symm
theorem treesDisplay_inj {m : NameMap} (hm : m.Clear) : ∀ {ts ts' : List SNode} {a a' r r' : Str},
    PrintableAll m ts → PrintableAll m ts' → treesDisplay m ts = .ok a → treesDisplay m ts' = .ok a' →
    a ++ ')' :: r = a' ++ ')' :: r' → SameTrees ts ts' ∧ r = r'
  | [], [], a, a', r, r', _, _, h, h', he => by
    simp only [treesDisplay] at h h'
    cases h; cases h'
    exact ⟨by rw [SameTrees]; trivial, by simpa using he⟩
  | [], t :: ts, a, a', r, r', _, _, h, h', he => by
    exfalso
    simp only [treesDisplay] at h
    cases h
    rcases treesDisplay_cases h' with ⟨h1, -⟩ | ⟨x, rfl⟩
    · cases h1
    · simp at he
  | t :: ts, [], a, a', r, r', _, _, h, h', he => by
    exfalso
    simp only [treesDisplay] at h'
    cases h'
    rcases treesDisplay_cases h with ⟨h1, -⟩ | ⟨x, rfl⟩
    · cases h1
    · simp at he
  | t :: ts, t' :: ts', a, a', r, r', hp, hp', h, h', he => by
    simp only [treesDisplay] at h h'
    rw [PrintableAll] at hp hp'
    obtain ⟨x, hx, h1⟩ := M.bind_eq_ok.1 h
    obtain ⟨y, hy, h2⟩ := M.bind_eq_ok.1 h1
    obtain ⟨x', hx', h1'⟩ := M.bind_eq_ok.1 h'
    obtain ⟨y', hy', h2'⟩ := M.bind_eq_ok.1 h1'
    cases h2; cases h2'
    simp only [List.cons_append, List.append_assoc, List.cons.injEq, true_and] at he
    obtain ⟨h3, he3⟩ := display_inj hm hp.1 hp'.1 hx hx' he
    obtain ⟨h4, h5⟩ := treesDisplay_inj hm hp.2 hp'.2 hy hy' he3
    exact ⟨by rw [SameTrees]; exact ⟨h3, h4⟩, h5⟩
end

mutual
theorem SameTree.text : ∀ {t t' : SNode}, SameTree t t' → t.text = t'.text
  | .leaf .., .leaf .., h => by
    rw [SameTree] at h
    simp only [SNode.text, h.2]
  | .newRows .., .newRows .., h => by
    rw [SameTree] at h
    simp only [SNode.text, h.2.1, SameTrees.cells h.2.2]
  | .children .., .children .., h => by
    rw [SameTree] at h
    simp only [SNode.text, SameTrees.text h.2]
  | .leaf .., .newRows .., h => by simp [SameTree] at h
  | .leaf .., .children .., h => by simp [SameTree] at h
  | .newRows .., .leaf .., h => by simp [SameTree] at h
  | .newRows .., .children .., h => by simp [SameTree] at h
  | .children .., .leaf .., h => by simp [SameTree] at h
  | .children .., .newRows .., h => by simp [SameTree] at h
theorem SameTrees.text : ∀ {ts ts' : List SNode}, SameTrees ts ts' → treesText ts = treesText ts'
  | [], [], _ => rfl
  | [], _ :: _, h => by simp [SameTrees] at h
  | _ :: _, [], h => by simp [SameTrees] at h
  | _ :: _, _ :: _, h => by
    rw [SameTrees] at h
    simp only [treesText, SameTree.text h.1, SameTrees.text h.2]
theorem SameTrees.cells : ∀ {ts ts' : List SNode}, SameTrees ts ts' →
    treeCellsText ts = treeCellsText ts'
  | [], [], _ => rfl
  | [], _ :: _, h => by simp [SameTrees] at h
  | _ :: _, [], h => by simp [SameTrees] at h
  | _ :: _, _ :: _, h => by
    rw [SameTrees] at h
    simp only [treeCellsText, SameTree.text h.1, SameTrees.cells h.2]
end

mutual
theorem SameTree.display {m : NameMap} : ∀ {t t' : SNode}, SameTree t t' → t.display m = t'.display m
  | .leaf .., .leaf .., h => by
    rw [SameTree] at h
    simp only [SNode.display, h.1, h.2, flatMap_printEscaped]
  | .newRows _ _ _ ts _, .newRows _ _ _ ts' _, h => by
    rw [SameTree] at h
    have hl := SameTrees.length h.2.2
    have he : ts.isEmpty = ts'.isEmpty := by cases ts <;> cases ts' <;> simp_all
    simp only [SNode.display, h.1, h.2.1, SameTrees.display h.2.2, he, hl]
  | .children .., .children .., h => by
    rw [SameTree] at h
    simp only [SNode.display, h.1, SameTrees.display h.2]
  | .leaf .., .newRows .., h => by simp [SameTree] at h
  | .leaf .., .children .., h => by simp [SameTree] at h
  | .newRows .., .leaf .., h => by simp [SameTree] at h
  | .newRows .., .children .., h => by simp [SameTree] at h
  | .children .., .leaf .., h => by simp [SameTree] at h
  | .children .., .newRows .., h => by simp [SameTree] at h
theorem SameTrees.display {m : NameMap} : ∀ {ts ts' : List SNode}, SameTrees ts ts' →
    treesDisplay m ts = treesDisplay m ts'
  | [], [], _ => rfl
  | [], _ :: _, h => by simp [SameTrees] at h
  | _ :: _, [], h => by simp [SameTrees] at h
  | _ :: _, _ :: _, h => by
    rw [SameTrees] at h
    simp only [treesDisplay, SameTree.display h.1, SameTrees.display h.2]
theorem SameTrees.length : ∀ {ts ts' : List SNode}, SameTrees ts ts' → ts.length = ts'.length
  | [], [], _ => rfl
  | [], _ :: _, h => by simp [SameTrees] at h
  | _ :: _, [], h => by simp [SameTrees] at h
  | _ :: _, _ :: _, h => by
    rw [SameTrees] at h
    simp only [List.length_cons, SameTrees.length h.2]
end

end Aftermath

import Verif.Proof.BracketsPage
import Verif.Props.BracketsSwap
import Verif.Props.Locality

/-! # Property theorems C97: on the page, a change within brackets stays within them -/

namespace Aftermath

variable {x : Xid}

theorem shown_iff_bare (hx : x.Letters) {g : Grammar} {m : NameMap} {R : Renderers}
    (h : Shipped x g m R) {row : Row} (hw : rowWf row = true) {t : SNode} (ht : g.parse row = .ok t) :
    (∃ e, Shown x row e) ↔ ¬ SpacedScript g.builtIn t := by
  obtain ⟨t', ht', hr⟩ := C57_partial hx h hw
  rw [ht] at ht'
  cases ht'
  rw [← hr]
  exact ⟨fun ⟨e, he⟩ => ⟨e, he.toIn.render h ht⟩, fun ⟨e, he⟩ => ⟨e, hx, hw, g, m, R, t, h, ht, he⟩⟩

/-- **C97** for the outermost row. -/
theorem brackets_shown (hx : x.Usual) {pre r₁ r₂ post : Row} {n : Nat} {e : RElem}
    (hs : Shown x (pre ++ sy '(' :: (r₁ ++ sy ')' :: post)) e)
    (hw₂ : rowWf r₂ = true)
    (hb : Balanced 0 (pre ++ sy '(' :: (r₁ ++ sy ')' :: post)))
    (hpre : Balanced 0 (pre ++ List.replicate n (sy ')')))
    (hr₁ : Balanced 0 r₁) (hne₁ : r₁ ≠ []) (hr₂ : Balanced 0 r₂) (hne₂ : r₂ ≠ []) :
    ((∃ e', Shown x (pre ++ sy '(' :: (r₂ ++ sy ')' :: post)) e') ↔ ∃ y, Shown x r₂ y) ∧
    ∀ e', Shown x (pre ++ sy '(' :: (r₂ ++ sy ')' :: post)) e' →
      ∃ y₁ y₂, Shown x r₁ y₁ ∧ Shown x r₂ y₂ ∧
        EltReplaced (inRoundBrackets (wrapInMRow y₁.elements))
          (inRoundBrackets (wrapInMRow y₂.elements)) (wrapInMRow e.elements)
          (wrapInMRow e'.elements) := by
  have hl := hs.letters
  have hw := hs.wf
  have hw' : rowWf (pre ++ sy '(' :: (r₂ ++ sy ')' :: post)) = true := by
    simp only [rowWf_append, rowWf, Bool.and_eq_true] at hw ⊢
    exact ⟨hw.1, hw.2.1, hw₂, hw.2.2.2⟩
  have hwr₁ : rowWf r₁ = true := by
    simp only [rowWf_append, rowWf, Bool.and_eq_true] at hw
    exact hw.2.2.1
  obtain ⟨-, -, g, m, R, T, hsh, hT, he⟩ := id hs
  obtain ⟨hg, hf⟩ := hsh.fits hl
  obtain ⟨t₁, t₂, T₁, T₂, h1, h2, h3, h4, h5⟩ := C96 hx hsh.parser hw hw' hb hpre hr₁ hne₁ hr₂ hne₂
  rw [hT] at h3
  cases h3
  have hbare := (shown_iff_bare hl hsh hw hT).1 ⟨e, hs⟩
  have hsp := (h5.spaced hf he hbare).trans (spaced_shift _ _ _)
  refine ⟨?_, fun e' hs' => ?_⟩
  · rw [shown_iff_bare hl hsh hw' h4, shown_iff_bare hl hsh hw₂ h2, hsp]
  · have hbare' := (shown_iff_bare hl hsh hw' h4).1 ⟨e', hs'⟩
    obtain ⟨y₂, hy₂⟩ := (shown_iff_bare hl hsh hw₂ h2).2 fun h => hbare' (hsp.2 h)
    obtain ⟨y₁, hy₁⟩ := (shown_iff_bare hl hsh hwr₁ h1).2 fun h =>
      hbare (h5.spaced_of ((spaced_shift _ _ _).2 h))
    have S := createParser_std hl hsh.parser
    have hop : hashGet R 0 = some .operator := by
      have := hf.operator
      rwa [S.builtIn] at this
    have hround : ∃ k, hashGet R 13 = some k ∧ (k = .container ∨ k = .brackets ∨ k = .operator) := by
      have hr : (⟨13, .atom, .brackets 0 ['('] [')']⟩ : Rule) ∈ g.ofRole .atom := by
        have : (⟨13, .atom, .brackets 0 ['('] [')']⟩ : Rule) ∈ g.atoms := by
          rw [S.atoms]
          simp [shippedAtoms]
        exact this
      have := (hf.atom hr).1
      simp only [fitsParser, Bool.and_eq_true, Bool.or_eq_true, beq_iff_eq] at this
      exact fits_brackets this.2
    have hnames : ∀ n, (bracketsAround n (t₁.shift (pre.length + 1))).PartOf T →
        ∃ k, hashGet R n = some k ∧ (k = .container ∨ k = .brackets ∨ k = .operator) := by
      intro n hn
      rcases parse_named S hT n _ hn with rfl | rfl
      · exact hround
      · exact ⟨_, hop, .inr (.inr rfl)⟩
    obtain ⟨o₁, o₂, z₁, z₂, h6, h7, h8⟩ := h5.page hop hnames he (hs'.toIn.render hsh h4)
    have e1 := hy₁.toIn.render hsh h1
    have e2 := hy₂.toIn.render hsh h2
    rw [← shift_zero_id t₁] at e1
    rw [← shift_zero_id t₂] at e2
    rw [render_same e1 h6, render_same e2 h7] at h8
    exact ⟨y₁, y₂, hy₁, hy₂, h8⟩

/-- **C97** A formula is shown. In one of its rows there are brackets, and what is between them is
replaced. Then the formula is shown exactly when the new content can be shown by itself, and on the page
only what is between the brackets is replaced: by what is shown for the new content by itself. -/
theorem C97 (hx : x.Usual) {root root' pre r₁ r₂ post : Row} {p : RowIndices} {n : Nat} {e : RElem}
    (hs : Shown x root e)
    (h : ReplacedAt root p (pre ++ sy '(' :: (r₁ ++ sy ')' :: post))
      (pre ++ sy '(' :: (r₂ ++ sy ')' :: post)) root')
    (hw₂ : rowWf r₂ = true)
    (hb : Balanced 0 (pre ++ sy '(' :: (r₁ ++ sy ')' :: post)))
    (hpre : Balanced 0 (pre ++ List.replicate n (sy ')')))
    (hr₁ : Balanced 0 r₁) (hne₁ : r₁ ≠ []) (hr₂ : Balanced 0 r₂) (hne₂ : r₂ ≠ []) :
    ((∃ e', Shown x root' e') ↔ ∃ y, Shown x r₂ y) ∧
    ∀ e', Shown x root' e' → ∃ y₁ y₂, Shown x r₁ y₁ ∧ Shown x r₂ y₂ ∧
      EltReplaced (inRoundBrackets (wrapInMRow y₁.elements))
        (inRoundBrackets (wrapInMRow y₂.elements)) (wrapInMRow e.elements)
        (wrapInMRow e'.elements) := by
  obtain ⟨z, hz⟩ := C81_part hs h.rowAt_old
  have hw := hz.wf
  have hw' : rowWf (pre ++ sy '(' :: (r₂ ++ sy ')' :: post)) = true := by
    simp only [rowWf_append, rowWf, Bool.and_eq_true] at hw ⊢
    exact ⟨hw.1, hw.2.1, hw₂, hw.2.2.2⟩
  obtain ⟨h1, h2⟩ := brackets_shown hx hz hw₂ hb hpre hr₁ hne₁ hr₂ hne₂
  refine ⟨(C81_shown hs h hw').1.trans h1, fun e' hs' => ?_⟩
  obtain ⟨z₁, z₂, hz₁, hz₂, h3⟩ := C81_page hs h hw' hs'
  obtain ⟨-, -, g, m, R, t, hsh, ht, hz'⟩ := id hz
  have hz₁' := hz₁.toIn.render hsh ht
  change render R none .none t = _ at hz'
  rw [hz'] at hz₁'
  cases hz₁'
  obtain ⟨y₁, y₂, hy₁, hy₂, h4⟩ := h2 z₂ hz₂
  exact ⟨y₁, y₂, hy₁, hy₂, h3.within h4⟩

namespace Component

variable {S : Setting} {c : Component}

theorem typed_in_brackets {pre r post : Row} {k : Nat} (hk : k ≤ r.length) (us : Row) :
    (pre ++ sy '(' :: (r ++ sy ')' :: post)).take (pre.length + 1 + k) ++ us ++
      (pre ++ sy '(' :: (r ++ sy ')' :: post)).drop (pre.length + 1 + k) =
    pre ++ sy '(' :: ((r.take k ++ us ++ r.drop k) ++ sy ')' :: post) := by
  have h1 : pre.length + 1 + k - pre.length = k + 1 := by omega
  rw [List.take_append, List.drop_append, h1, List.take_of_length_le (by omega),
    List.drop_eq_nil_of_le (by omega), List.take_succ_cons, List.drop_succ_cons,
    List.take_append_of_le_length hk, List.drop_append_of_le_length hk]
  simp

/-- **C97** for typing: the caret is somewhere between two brackets in some row of a formula that is
shown, and characters are typed, with timers firing at any moments. When brackets and quotes are closed
in what is then between the brackets, and it can be shown by itself, then on the page only what is
between the brackets is replaced. -/
theorem _root_.Aftermath.C97_typed (hx : x.Usual) (hS : S.Ships x)
    (hsplit : ∀ ch, S.browser.split [ch] = [[ch]])
    {q : RowIndices} {k n : Nat} {pre r post : Row} {w u : Str} (hwf : rowWf c.editor.input = true)
    (hf : Fresh S.env c.editor) (hu : c.UpToDate S)
    (hc : c.editor.caret = .at ⟨q, pre.length + 1 + k⟩) (hk : k ≤ r.length)
    (hrow : rowAt c.editor.input q = some (pre ++ sy '(' :: (r ++ sy ')' :: post)))
    (htext : TextLeft (pre ++ sy '(' :: (r ++ sy ')' :: post)) (pre.length + 1 + k) w)
    (htasks : c.tasks = [])
    {evs : List (View × Event)} (ht : ∀ e ∈ evs, e.2.Typing)
    (hG : ∀ e ∈ evs, ∀ p, 0 < e.1.after.fontSize p) (hin : inputsOf evs = u.map typed)
    (hm : timersLeft 0 evs = some 0)
    (hs : ∃ e, Shown x c.editor.input e)
    (hb : Balanced 0 (pre ++ sy '(' :: (r ++ sy ')' :: post)))
    (hpre : Balanced 0 (pre ++ List.replicate n (sy ')')))
    (hr : Balanced 0 r) (hne : r ≠ [])
    (hr' : Balanced 0 (r.take k ++ u.map sy ++ r.drop k))
    (hs' : ∃ y, Shown x (r.take k ++ u.map sy ++ r.drop k) y) :
    ∃ c', c.handleAll S evs = some c' ∧ Shown x c.editor.input c.result ∧
      Shown x c'.editor.input c'.result ∧
      ∃ y y', Shown x r y ∧ Shown x (r.take k ++ u.map sy ++ r.drop k) y' ∧
        EltReplaced (inRoundBrackets (wrapInMRow y.elements))
          (inRoundBrackets (wrapInMRow y'.elements))
          (wrapInMRow c.result.elements) (wrapInMRow c'.result.elements) := by
  obtain ⟨c', h1, -, h2, h3, -⟩ := C77_typed hS hsplit hwf hf hu hc hrow htext htasks ht hG hin hm
  obtain ⟨hl, m, hsh⟩ := hS
  rw [typed_in_brackets hk] at h3
  obtain ⟨e, he⟩ := hs
  obtain ⟨z, hz⟩ := hs'
  have hne' : r.take k ++ u.map sy ++ r.drop k ≠ [] := by
    intro h
    simp only [List.append_eq_nil_iff] at h
    apply hne
    rw [← List.take_append_drop k r, h.1.1, h.2]
    rfl
  obtain ⟨h4, h5⟩ := C97 hx he h3 hz.wf hb hpre hr hne hr' hne'
  obtain ⟨e', he'⟩ := h4.2 ⟨z, hz⟩
  have r1 := he.toIn.render hsh hu.tree
  have r2 := he'.toIn.render hsh h2.tree
  have r1' := hu.result ⟨e, r1⟩
  have r2' := h2.result ⟨e', r2⟩
  unfold renderAll at r1' r2'
  rw [r1] at r1'
  rw [r2] at r2'
  cases r1'
  cases r2'
  exact ⟨c', h1, he, he', h5 _ he'⟩

end Component

/-! ## Examples -/

/-- `1` over `2(x)!`, and the same with `y³-"("` in the brackets. -/
example : ∃ e e' y y', Shown letterXid [.fraction [sy '1'] (symbols "2(x)!")] e ∧
    Shown letterXid [.fraction [sy '1']
      (symbols "2" ++ sy '(' :: ((sy 'y' :: .sup [sy '3'] :: symbols "-\"(\"") ++ sy ')' :: symbols "!"))] e' ∧
    Shown letterXid (symbols "x") y ∧ Shown letterXid (sy 'y' :: .sup [sy '3'] :: symbols "-\"(\"") y' ∧
    EltReplaced (inRoundBrackets (wrapInMRow y.elements)) (inRoundBrackets (wrapInMRow y'.elements))
      (wrapInMRow e.elements) (wrapInMRow e'.elements) := by
  have h1 : (shownFor letterXid [.fraction [sy '1'] (symbols "2(x)!")]).isSome = true := by decide +kernel
  have h2 : (shownFor letterXid (sy 'y' :: .sup [sy '3'] :: symbols "-\"(\"")).isSome = true := by
    decide +kernel
  obtain ⟨e, he⟩ := Option.isSome_iff_exists.1 h1
  obtain ⟨z, hz⟩ := Option.isSome_iff_exists.1 h2
  have he := shownFor_shown letterXid_letters (by decide) he
  have hz := shownFor_shown letterXid_letters (by decide) hz
  have hrep : ReplacedAt [.fraction [sy '1'] (symbols "2(x)!")] [(0, 1)]
      (symbols "2" ++ sy '(' :: (symbols "x" ++ sy ')' :: symbols "!"))
      (symbols "2" ++ sy '(' :: ((sy 'y' :: .sup [sy '3'] :: symbols "-\"(\"") ++ sy ')' :: symbols "!"))
      [.fraction [sy '1'] (symbols "2" ++ sy '(' ::
        ((sy 'y' :: .sup [sy '3'] :: symbols "-\"(\"") ++ sy ')' :: symbols "!"))] := by
    refine .under (c := symbols "2" ++ sy '(' :: (symbols "x" ++ sy ')' :: symbols "!")) rfl rfl rfl
      (fun k hk => ?_) rfl rfl rfl (fun k hk => ?_) (.here _ _)
    · cases k with
      | zero => exact absurd rfl hk
      | succ k => rfl
    · match k with
      | 0 => rfl
      | 1 => exact absurd rfl hk
      | k + 2 => rfl
  have ho : ∀ {c : Char} {d : Nat} {r : Row}, c ≠ '(' → c ≠ ')' → c ≠ '"' → Balanced d r →
      Balanced d (sy c :: r) := fun h1 h2 h3 h => .other (by simpa) (by simpa) (by simpa) h
  have hb : Balanced 0 (symbols "2" ++ sy '(' :: (symbols "x" ++ sy ')' :: symbols "!")) :=
    ho (by decide) (by decide) (by decide) <| .opening <| ho (by decide) (by decide) (by decide) <|
      .closing <| ho (by decide) (by decide) (by decide) .nil
  have hb' : Balanced 0 (sy 'y' :: .sup [sy '3'] :: symbols "-\"(\"") :=
    ho (by decide) (by decide) (by decide) <| .container <| ho (by decide) (by decide) (by decide) <|
      .quotes (l := [['(']]) (.plain (by decide) (by decide) .nil) .nil
  obtain ⟨h3, h4⟩ := C97 (n := 0) letterXid_usual he hrep hz.wf hb
    (ho (by decide) (by decide) (by decide) .nil) (ho (by decide) (by decide) (by decide) .nil) nofun hb' nofun
  obtain ⟨e', he'⟩ := h3.2 ⟨z, hz⟩
  obtain ⟨y, y', h5, h6, h7⟩ := h4 e' he'
  exact ⟨e, e', y, y', he, he', h5, h6, h7⟩

/-- What cannot be shown by itself cannot be shown in brackets either. -/
example : (shownFor letterXid (sy 'y' :: .sup [sy '3'] :: [sy ' '])).isSome = false ∧
    (shownFor letterXid (sy '(' :: ((sy 'y' :: .sup [sy '3'] :: [sy ' ']) ++ [sy ')']))).isSome = false := by
  decide +kernel

end Aftermath

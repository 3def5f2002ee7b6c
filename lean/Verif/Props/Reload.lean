import Verif.Proof.Reload
import Verif.Props.Dom
import Verif.Props.MathML

/-! # C90: loading what is shown -/

namespace Aftermath

variable {b : Browser} {x : Xid} {row : Row} {e : RElem}

/-- Loading the shown elements is reading them one after the other. -/
theorem fromElement_shown (r : Row) (errs : List ImportError) :
    fromElement b e.shownDom = .ok (r, errs) ↔
      ∃ ls, toLayouts b (eltsDoms e.elements) = .ok (ls, errs) ∧ (ls.map wrapInRow).flatten = r := by
  unfold fromElement RElem.shownDom
  rw [toLayout]
  simp only [Dom.tag, beq_self_eq_true, massert, if_true, M.ok_bind]
  cases toLayouts b (eltsDoms e.elements) with
  | error p => simp [M.error_bind]
  | ok q =>
    obtain ⟨ls, es⟩ := q
    simp only [M.ok_bind, wrap_many, Except.ok.injEq, Prod.mk.injEq]
    constructor
    · rintro ⟨rfl, rfl⟩
      exact ⟨ls, ⟨rfl, rfl⟩, rfl⟩
    · rintro ⟨_, ⟨rfl, rfl⟩, rfl⟩
      exact ⟨rfl, rfl⟩

theorem Shown.damage (hs : Shown x row e) :
    (∀ c ∈ e.elements, c.Plain) ∨ Damage .none e.elements := by
  obtain ⟨hx, hw, g, m, R, t, h, ht, he⟩ := hs
  exact render_damage (h.fits hx).2 he

/-- **C90.** Nothing is thrown when the shown elements are loaded. -/
theorem C90_loads (b : Browser) (hs : Shown x row e) :
    ∃ r errs, fromElement b e.shownDom = .ok (r, errs) := by
  have hsafe : e.shownDom.Safe := by
    obtain ⟨hx, hw, g, m, R, t, h, ht, he⟩ := hs
    refine .mk (fun h => by simpa [RElem.shownDom, Dom.tag] using h.1) fun d hd => ?_
    rw [RElem.shownDom, Dom.children, eltsDoms_eq, List.mem_flatMap] at hd
    obtain ⟨c, hc, hd⟩ := hd
    obtain ⟨d', hd', hs⟩ := (render_sound (h.fits hx).2 he c hc).doms
    rw [hd', List.mem_singleton] at hd
    exact hd ▸ hs
  cases hf : fromElement b e.shownDom with
  | ok q => exact ⟨q.1, q.2, rfl⟩
  | error p =>
    rcases (C54_throws (b := b) e.shownDom).1 ⟨p, hf⟩ with h | ⟨d', h1, h2⟩
    · exact absurd rfl h
    · exact absurd h2 (hsafe.reads h1).bare

theorem mem_rowSigns {n : Node} {s : Sign} : ∀ {row : Row}, n ∈ row → s ∈ n.signs →
    s ∈ rowSigns row
  | a :: as, hn, hs => by
    rw [rowSigns, List.mem_append]
    cases hn with
    | head => exact .inl hs
    | tail _ hn => exact .inr (mem_rowSigns hn hs)

theorem symbols_signs : ∀ {row : Row}, (∀ n ∈ row, ∃ s, n = .symbol s) →
    ∀ v w, Sign.enter v w ∉ rowSigns row
  | [], _, v, w, h => by simp [rowSigns] at h
  | a :: as, hn, v, w, h => by
    rw [rowSigns, List.mem_append] at h
    rcases h with h | h
    · obtain ⟨s, rfl⟩ := hn a (.head _)
      simp [Node.signs] at h
    · exact symbols_signs (fun n h => hn n (.tail _ h)) v w h

theorem signs_symbols (h : ∀ s ∈ rowSigns row, ∃ ch, s = .char ch) : ∀ n ∈ row, ∃ s, n = .symbol s := by
  intro n hn
  cases n with
  | symbol s => exact ⟨s, rfl⟩
  | container v cells w =>
    obtain ⟨ch, h⟩ := h (.enter v (if v = .table then w else 0))
      (mem_rowSigns hn (by rw [Node.signs]; exact .head _))
    cases h

theorem oneChar_signs : ∀ {row : Row}, (∀ n ∈ row, ∃ s, n = .symbol s) → RowOneChar row →
    (rowSigns row).length = row.length ∧ (rowSigns row).flatMap Sign.nodes = row
  | [], _, _ => by simp [rowSigns]
  | a :: as, hn, ho => by
    obtain ⟨s, rfl⟩ := hn a (.head _)
    obtain ⟨h1, h2⟩ := oneChar_signs (fun n h => hn n (.tail _ h)) ho.2
    have h3 : s.length = 1 := ho.1
    match s, h3 with
    | [c], _ =>
      rw [rowSigns]
      constructor
      · rw [List.length_append, h1, Node.signs]
        simp [Nat.add_comm]
      · rw [List.flatMap_append, h2, Node.signs]
        rfl

theorem rowChars_signs {P : Char → Prop} : ∀ {row : Row}, (∀ n ∈ row, ∃ s, n = .symbol s) →
    RowChars P row → ∀ ch, Sign.char ch ∈ rowSigns row → P ch
  | [], _, _, _, h => by simp [rowSigns] at h
  | a :: as, hn, hp, ch, h => by
    obtain ⟨s, rfl⟩ := hn a (.head _)
    rw [rowSigns, List.mem_append, Node.signs] at h
    rw [RowChars, Node.Chars] at hp
    rcases h with h | h
    · obtain ⟨c, hc, h⟩ := List.mem_map.1 h
      cases h
      exact hp.1 _ hc
    · exact rowChars_signs (fun n h => hn n (.tail _ h)) hp.2 ch h

/-- **C90.** If the formula has a fraction, a root, a table or a script, or if a space or an unknown
token is on the page, then a symbol `Error` is in what is loaded. -/
theorem C90_error (hb : b.nfd "Error".toList = "Error".toList) (hs : Shown x row e)
    (h : (∃ v cells w, Node.container v cells w ∈ row) ∨
      0 < e.tagged (.other "merror".toList) ∨ 0 < e.tagged (.other "mspace".toList))
    {r : Row} {errs : List ImportError} (hr : fromElement b e.shownDom = .ok (r, errs)) :
    Inside (.symbol "Error".toList) r := by
  rcases hs.damage with hp | hd
  · exfalso
    have hz : ∀ s, eltsCount (fun t _ => t == .other s) e.elements = 0 := by
      intro s
      have := (Elt.Plain.row hp).count s
      rw [Elt.count] at this
      omega
    rcases h with ⟨v, cells, w, hc⟩ | h | h
    · have hch : ∀ s ∈ rowSigns row, ∃ ch, s = .char ch := by
        rw [← (C67_signs hs).2, eltsSigns_eq]
        intro s hs
        obtain ⟨c, hc, hs⟩ := List.mem_flatMap.1 hs
        exact (hp c hc).chars s hs
      obtain ⟨s, h⟩ := signs_symbols hch _ hc
      cases h
    · rw [RElem.tagged, hz] at h
      omega
    · rw [RElem.tagged, hz] at h
      omega
  · obtain ⟨ls, h1, rfl⟩ := (fromElement_shown r errs).1 hr
    obtain ⟨⟨c, hc, hbr⟩, -⟩ := hd
    obtain ⟨d, hcd, hd⟩ := broken_inside hb hbr
    obtain ⟨l, hl, e', h2⟩ := toLayouts_mem h1 d (by
      rw [eltsDoms_eq, List.mem_flatMap]
      exact ⟨c, hc, by rw [hcd]; exact .head _⟩)
    exact (hd l e' h2).mono fun n hn => List.mem_flatten.2 ⟨_, List.mem_map_of_mem hl, hn⟩

/-- **C90.** A formula is loaded back from what is shown for it exactly if it consists of symbols,
and no unknown token, no space and no string is on the page. Then there are no complaints. The
symbols are single characters that the browser leaves as they are. -/
theorem C90 {P : Char → Prop} (hb : b.Plain P) (hs : Shown x row e) (h1 : RowOneChar row)
    (hP : RowChars P row) :
    ((∃ errs, fromElement b e.shownDom = .ok (row, errs)) ↔
      (∀ n ∈ row, ∃ s, n = .symbol s) ∧ e.tagged (.other "merror".toList) = 0 ∧
        e.tagged (.other "mspace".toList) = 0 ∧ e.tagged .mtext = 0) ∧
    ∀ errs, fromElement b e.shownDom = .ok (row, errs) → errs = [] := by
  have hsig := (C67_signs hs).2
  rcases hs.damage with hp | hd
  · have hz : ∀ s, e.tagged (.other s) = 0 := by
      intro s
      have := (Elt.Plain.row hp).count s
      rw [Elt.count] at this
      rw [RElem.tagged]
      omega
    have hch : ∀ s ∈ rowSigns row, ∃ ch, s = .char ch := by
      rw [← hsig, eltsSigns_eq]
      intro s hs
      obtain ⟨c, hc, hs⟩ := List.mem_flatMap.1 hs
      exact (hp c hc).chars s hs
    have hsym := signs_symbols hch
    obtain ⟨hlen, hflat⟩ := oneChar_signs hsym h1
    obtain ⟨ls, h2, h3, h4⟩ := plains_read hb hp (by rw [hsig]; exact rowChars_signs hsym hP)
    rw [hsig, hlen] at h3
    rw [hsig, hflat] at h4
    have hm : e.tagged .mtext = eltsCount isMtext e.elements := rfl
    constructor
    · constructor
      · rintro ⟨errs, h⟩
        refine ⟨hsym, hz _, hz _, ?_⟩
        obtain ⟨ls', h5, h6⟩ := (fromElement_shown row errs).1 h
        rw [h2] at h5
        cases h5
        rw [h6] at h3
        omega
      · rintro ⟨-, -, -, h⟩
        exact ⟨[], (fromElement_shown row []).2 ⟨ls, h2, h4 (hm ▸ h)⟩⟩
    · intro errs h
      obtain ⟨ls', h5, h6⟩ := (fromElement_shown row errs).1 h
      rw [h2] at h5
      cases h5
      rfl
  · have hno : ∀ errs, fromElement b e.shownDom ≠ .ok (row, errs) := by
      intro errs h
      have hcond : (∃ v cells w, Node.container v cells w ∈ row) ∨
          0 < e.tagged (.other "merror".toList) ∨ 0 < e.tagged (.other "mspace".toList) := by
        rcases hd.reason with h | ⟨v, w, h⟩ | h | h
        · exact absurd rfl h
        · refine .inl ?_
          by_contra hc
          refine symbols_signs (row := row) (fun n hn => ?_) v w (hsig ▸ h)
          cases n with
          | symbol s => exact ⟨s, rfl⟩
          | container v cells w => exact absurd ⟨v, cells, w, hn⟩ hc
        · exact .inr (.inr h)
        · exact .inr (.inl h)
      have := inside_oneChar (C90_error hb.error hs hcond h) h1
      simp at this
    refine ⟨⟨fun ⟨errs, h⟩ => absurd h (hno errs), fun ⟨hsym, h2, h3, h4⟩ => ?_⟩,
      fun errs h => absurd h (hno errs)⟩
    rcases hd.reason with h | ⟨v, w, h⟩ | h | h
    · exact absurd rfl h
    · exact absurd (hsig ▸ h) (symbols_signs hsym v w)
    · rw [RElem.tagged] at h3
      omega
    · rw [RElem.tagged] at h2
      omega

/-! ## Examples -/

/-- Removes no-break spaces at the beginning; leaves everything else as it is. -/
def trimBrowser : Browser :=
  ⟨fun s => s.dropWhile (· == '\u00A0'), fun s => s.map fun c => [c], id⟩

theorem trimBrowser_plain : trimBrowser.Plain (· ≠ '\u00A0') where
  trim s h := by
    cases s with
    | nil => rfl
    | cons c s =>
      have : (c == '\u00A0') = false := by simpa using h c (.head _)
      simp [trimBrowser, this]
  split _ _ := rfl
  nfd _ _ := rfl
  blank := by decide
  empty := rfl
  error := rfl

/-- `a*1+` is loaded back, although the last operand is missing. -/
def openSum : Row := ['a', '*', '1', '+'].map fun c => .symbol [c]

example : ∃ e, Shown letterXid openSum e ∧ fromElement trimBrowser e.shownDom = .ok (openSum, []) := by
  have h : ((shownFor letterXid openSum).map fun e => (e.tagged (.other "merror".toList),
    e.tagged (.other "mspace".toList), e.tagged .mtext)) = some (0, 0, 0) := by decide +kernel
  obtain ⟨e, he, ht⟩ := Option.map_eq_some_iff.1 h
  have hs := shownFor_shown letterXid_letters (by decide) he
  simp only [Prod.mk.injEq] at ht
  have := C90 trimBrowser_plain hs (by simp [openSum, RowOneChar, Node.OneChar])
    (by simp [openSum, RowChars, Node.Chars])
  obtain ⟨errs, h⟩ := this.1.2 ⟨by simp [openSum], ht⟩
  exact ⟨e, hs, this.2 _ h ▸ h⟩

/-- `x²` becomes `x` with the exponent `Error 2 Error`. -/
example : ((shownFor letterXid [.symbol ['x'], .sup [.symbol ['2']]]).map fun e =>
      (fromElement trimBrowser e.shownDom).toOption.map (·.1)) =
    some (some [.symbol ['x'], .sup [.symbol "Error".toList, .symbol ['2'],
      .symbol "Error".toList]]) := by
  decide +kernel

/-- A string comes back with its quotation marks doubled. -/
example : ((shownFor letterXid (['"', 'a', '"'].map fun c => .symbol [c])).map fun e =>
      (fromElement trimBrowser e.shownDom).toOption.map (·.1)) =
    some (some (['"', '"', 'a', '"', '"'].map fun c => .symbol [c])) := by
  decide +kernel

end Aftermath

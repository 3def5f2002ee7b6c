import Verif.Props.Clipboard
import Verif.Proof.JsonClip

/-! # Property theorem C70: which texts can be pasted -/

namespace Aftermath

variable {T : Type} {env : Env T}

/-- **C70.** A text is read as nodes exactly when it is a JSON text (RFC 8259) that describes these
nodes. -/
theorem C70_reads (cfg : Cfg) (s : Str) (nodes : List Node) :
    deserializeNodes cfg s = some nodes ↔ Describes cfg.bits s nodes := deserializeNodes_iff

/-- No text describes two formulas. -/
theorem C70_unique {bits : Nat} {s : Str} {a b : List Node} (ha : Describes bits s a)
    (hb : Describes bits s b) : a = b := by
  have h := (C70_reads ⟨true, bits⟩ s a).2 ha
  rw [(C70_reads ⟨true, bits⟩ s b).2 hb] at h
  exact (Option.some.inj h).symm

/-- A text is the text of at most one JSON document. -/
theorem C70_unambiguous {d d' : JDoc} {s : Str} (h : d.Written s) (h' : d'.Written s) : d = d' :=
  h.unique h'

/-- How the nodes are written does not matter for pasting: white space, the order of members,
members that are not known, escapes. -/
theorem C70_paste_same {ed : Editor T} {s t : Str} {nodes : List Node}
    (hs : Describes env.cfg.bits s nodes) (ht : Describes env.cfg.bits t nodes) :
    ed.paste env s true = ed.paste env t true := by
  simp only [Editor.paste, (C70_reads env.cfg s nodes).2 hs, (C70_reads env.cfg t nodes).2 ht]

/-- Pasting a text that describes no nodes is refused, without a panic unless computing the
autocompletions panics, and changes neither the formula nor the caret nor the history. -/
theorem C70_paste_refused {ed e : Editor T} {ac : Option AutocorrectAction} {s : Str}
    (hs : ed.startAutocorrect env = .ok (e, ac))
    (h : ∀ nodes, ¬ Describes env.cfg.bits s nodes) :
    ∃ ed', ed.paste env s true = .ok (ed', false) ∧ ed'.input = ed.input ∧
      ed'.caret = ed.caret ∧ ed'.undo = ed.undo := by
  have hd : deserializeNodes env.cfg s = none := by
    cases hd : deserializeNodes env.cfg s with
    | none => rfl
    | some nodes => exact absurd ((C70_reads env.cfg s nodes).1 hd) (h nodes)
  obtain ⟨hq, hc⟩ := startAutocorrect_quiet hs
  exact ⟨e, by simp only [Editor.paste, hs, M.ok_bind, if_true, hd], hq.input, hc, hq.undo⟩

/-- Conversely, a refused text describes no nodes. -/
theorem C70_refused_only {ed ed' : Editor T} {s : Str}
    (h : ed.paste env s true = .ok (ed', false)) (nodes : List Node) :
    ¬ Describes env.cfg.bits s nodes := by
  intro hd
  simp only [Editor.paste] at h
  obtain ⟨⟨e, ac⟩, -, h⟩ := M.bind_eq_ok.1 h
  simp only [if_true, (C70_reads env.cfg s nodes).2 hd] at h
  obtain ⟨e', -, h⟩ := M.bind_eq_ok.1 h
  cases h

/-- **C70.** The text of nodes, character by character: without white space, members in one order,
escapes only where they are needed, the short ones where there are any and lower-case digits in the
others. -/
theorem C70_text (nodes : List Node) (s : Str) : serializeNodes nodes = s ↔ ClipText nodes s :=
  eq_comm.trans clipText_iff.symm

/-- **C70.** If the caret selects a part of a row, exactly one text is copied: that of the nodes of
this part. -/
theorem C70_copied_text {ed : Editor T} {rng : MinRange} (hwf : rowWf ed.input = true)
    (hsel : selectionOf ed.input ed.caret = .ok (.row rng)) :
    ∃ row, rowAt ed.input rng.rowIndices = some row ∧
      ∀ s, ed.copy = .ok s ↔
        ClipText ((row.take (max rng.start rng.stop)).drop (min rng.start rng.stop)) s := by
  obtain ⟨row, h1, -, h2⟩ := copy_ok hwf hsel
  refine ⟨row, h1, fun s => ?_⟩
  rw [← C70_text, h2]
  exact ⟨fun h => Except.ok.inj h, fun h => congrArg _ h⟩

/-- What is copied is a JSON text, of an object with the version and the nodes. -/
theorem C70_copied {ed : Editor T} {s : Str} (h : ed.copy = .ok s) :
    ∃ nodes, s = serializeNodes nodes ∧
      ∃ values, JDoc.Written (.obj [(some "version".toList, .nat 1),
        (some "data".toList, .arr values)]) s := by
  simp only [Editor.copy] at h
  obtain ⟨c, -, h⟩ := M.bind_eq_ok.1 h
  cases hc : c.selection with
  | grid g => rw [hc] at h; cases h
  | row r =>
    rw [hc] at h
    obtain ⟨vs, -, h⟩ := M.bind_eq_ok.1 h
    cases h
    exact ⟨vs, rfl, _, serializeNodes_written vs⟩

/-! ## Examples

The accepted texts below describe nodes (`C70_reads`), the others do not. -/

/-- `x` and a fraction of `1` and `2`. -/
def pastedNodes : List Node :=
  [.symbol ['x'], Node.fraction [.symbol ['1']] [.symbol ['2']]]

/-- White space, members in another order, an unknown member with a lone surrogate and a number that
is too large, escapes, a record written as an array, a unit variant written as an object. -/
example : Describes 32
    (" { \"data\" : [ {\"Symbol\":\"\\u0078\"},\n\t{\"Container\":[{\"Fraction\":null}," ++
      "{\"width\":1,\"values\":[[[{\"Symbol\":\"1\"}]],{\"values\":[{\"Symbol\":\"2\"}]," ++
      "\"note\":[\"\\uD800\",-1.5e999,true]}]}]} ] , \"version\" : 4294967295 }\r\n").toList
    pastedNodes := by
  rw [← C70_reads ⟨true, 32⟩]; decide +kernel

/-- The whole text may be an array, and a pair of surrogates stands for one character. -/
example : Describes 32 "[0,[{\"Symbol\":\"\\ud83d\\uDE00\"}]]".toList [.symbol ['😀']] := by
  rw [← C70_reads ⟨true, 32⟩]; decide +kernel

/-- The text of `x`, a line break, a form feed and the character with the number 27. -/
example : ClipText [.symbol "x\n\x0c\x1b".toList, Node.sup [.symbol ['"']]]
    ("{\"version\":1,\"data\":[{\"Symbol\":\"x\\n\\f\\u001b\"}," ++
      "{\"Container\":[\"Sup\",{\"values\":[{\"values\":[{\"Symbol\":\"\\\"\"}]}]," ++
      "\"width\":1}]}]}").toList := by
  rw [← C70_text]; decide +kernel

/-- Not JSON: a comma at the end, a leading zero, single quotes, an unescaped line break, a comment,
something behind the end. Not nodes: no version, a version that is too large, negative or not an
integer, a member given twice, a lone surrogate in a symbol, an unknown kind of node. -/
def refusedTexts : List String := [
      "{\"version\":1,\"data\":[{\"Symbol\":\"x\"},]}",
      "{\"version\":01,\"data\":[]}",
      "{'version':1,'data':[]}",
      "{\"version\":1,\"data\":[{\"Symbol\":\"\n\"}]}",
      "{\"version\":1,/**/\"data\":[]}",
      "{\"version\":1,\"data\":[]} x",
      "{\"data\":[]}",
      "{\"version\":4294967296,\"data\":[]}",
      "{\"version\":-1,\"data\":[]}",
      "{\"version\":1.0,\"data\":[]}",
      "{\"version\":1,\"version\":1,\"data\":[]}",
      "{\"version\":1,\"data\":[{\"Symbol\":\"\\ud800\"}]}",
      "{\"version\":1,\"data\":[{\"Letter\":\"x\"}]}",
      "x+1", ""]

theorem refusedTexts_none : ∀ s ∈ refusedTexts, deserializeNodes ⟨true, 32⟩ s.toList = none := by
  decide +kernel

example : ∀ s ∈ refusedTexts, ∀ nodes, ¬ Describes 32 s.toList nodes := by
  intro s hs nodes hd
  have h := (C70_reads ⟨true, 32⟩ s.toList nodes).2 hd
  rw [refusedTexts_none s hs] at h
  cases h

end Aftermath

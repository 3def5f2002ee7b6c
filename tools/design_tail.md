
## Where program and properties disagree

Each of these is a theorem about the model (negation with a concrete reachable witness), together
with partial theorems that say what does hold.

1. Grid deletions build a lazy `skip` and drop it, so undoing a grid insertion panics (C04).
2. The rectangle of a grid selection is wrong for anti-diagonal corners, and the size of a grid view
   is wrong unless it spans full rows (C13).
3. `splice_at_range` and an accepted completion put the caret back where it was although the formula
   may have shrunk (C26).
4. Ten independent sequences of public calls panic (C27): among them Left at the start of a first
   cell, Backspace at the start and Delete at the end of the formula (both in the shipped dev
   build, C08 and C33), Word and Line mode, grid selections, empty symbols before the caret.
5. Tracking a range through an edit of an enclosing row adjusts the wrong entry of the path, and
   panics for the root row (C29).
6. Two matches of one rule make the list of completions stuck (C32_stuck).
7. Autocorrection is checked at the wrong offset: it never fires for a token at the start of a row
   and panics for others (C35).
8. The clipboard text of more than 20 nested containers cannot be read back, so cut and paste loses
   it (C37, C38). Paste accepts ill-formed grids (C39).
9. `¬` is registered as a left infix operator, so `¬x` parses with a missing token; `( )` with a
   space inside gives an unknown-token error (seen in Check/RepoTests and the examples of
   Props/Expression).
10. Node name ids wrap after 2^32 names (C41_bound_needed).
11. Reading MathML throws a TypeError for `msub`, `msup` and `msubsup` without children, and makes an
    ill-formed formula of an empty `mtable`, on which the parser then panics (C54_not,
    C56_empty_table_panics).
12. Setting the attribute `mathml` panics while the caret is in a cell, and can leave the caret beyond
    the end of the new formula (C56_nested_panics, C56_caret_lost).
13. A formula in which a space follows a superscript or subscript cannot be shown: the renderer
    expects the script itself as second child of the node, but the parser puts a `Whitespaces` node
    there, and an assertion throws (C57_throws).
14. A click on the script in a cell that is just a base with a script (the exponent of the numerator
    of `x^2/y`) gives a position that does not exist: `newRowsOperatorOverride` in
    `src/mathml/renderer.ts` gives the row index of the whole expression to the element of the
    script as well, and the search adds it twice. `start_selection` does not check, and the next
    `get_caret` panics (C59_not).
15. A drag or a double click ends a pending autocorrection without calling `updateInput`, so that
    the old formula stays on the screen until the next key (C61_not).
16. Typing a space behind a superscript throws out of the timer of `RenderTaskQueue`; the key is not
    lost, but the formula on the screen is the old one (C62_not, from 13).

17. `beforeinput` is handled by a timer and `keydown` at once, so that a key pressed right after a
    character can be applied before it (C64_not).
18. Double and triple clicks only set `selection_mode`, whose value is never used: no word or line is
    selected (C65_double). `pointerup` does not look at `isPointerDown`, so that releasing the pointer
    over the formula extends the selection even if it was pressed elsewhere (C65_not).
19. When rendering throws, `renderResult` is still that of the old formula. A click is then looked up
    in the old formula and can give a position that the current one does not have; the next Backspace
    panics (C66_not).
20. The logical connectives have the binding power of `+`, so they bind more strongly than `=` and
    comparisons: `a=b∧c=d` is read as `(a=(b∧c))=d`. `¬` is an infix operator, `^` a postfix
    operator, and the comma of tuples binds more strongly than `=` (Props/Notation).
21. With a completed word such as `sum` in the numerator of a fraction (or the first cell of a root)
    of the outermost row, Delete at the end of the numerator panics. Without the word it dissolves
    the fraction (`C71_dissolve`). Inside of another element the word is looked for in an unrelated
    place (`LosesToken`).
22. Right behind `sum` in `abcsumx` replaces `sum` by `∑`, but the caret is not moved back by the
    two places that are gone. It is then outside of the formula, drawing it panics, and no call of
    the editor works any more (`C73_lost`; `C73_right` says when). With enough symbols behind the
    token it is two places too far to the right.
23. The shipped rule `lim` is never completed by typing: `liminf` is suggested first. The shipped
    rules `^`, `_` and `/` are never suggested at all, since two characters are needed. With the
    caret put behind an existing `liminf`, `infinity` is suggested first because `inf` is shorter
    (`C75_shipped`, `C75_typed_shipped`).
24. `mousedown` and the pointer handlers make a selection, which can replace a completed token, but
    they only draw the caret: formula and syntax tree stay the old ones. Setting the attribute then
    replaces the range of the old syntax tree, which panics (`C76_stale`).
25. The parser backtracks without bound. Every opening bracket that is not closed triples the number
    of calls of `pratt_parse`: 20 of them take more than three thousand million calls, so typing them
    stops the editor (`C79_brackets`). Formulas without errors can take exponentially many calls too,
    with scripts at infix operators nested in each other (`C79_scripts`). An unknown symbol before
    brackets makes the brackets be read twice (Props/Effort, last example).
26. The box drawn for selected cells of a table goes from the first to the last cell only. Cells are
    centred in their columns (`math-editor-styles.css`), so a wider cell between the two sticks out of
    the box although it is selected (`C80_centred`). The code has a TODO for this
    (`src/mathml/render-result.ts` 82).
27. `connectedCallback` sets the formula of the attribute again, and nothing updates the attribute.
    So the page load sets every formula twice and the first undo does nothing (`C82_undo`), and moving
    the element within the document discards all edits, or panics if the caret is in an element or
    behind the end of the formula of the attribute (`C83_not`).
28. The rules for `^`, `_` and `/` never fire, since `get_autocomplete` asks for at least two matched
    symbols (`math_editor.rs` 345) and they have one character. So fractions, superscripts and
    subscripts cannot be typed (`C84`); they can only be pasted or set by the attribute.
29. No key of the component calls `select_with_caret` or `select_all`, so nothing can be selected
    without the pointer, and Ctrl+C then copies an empty list (`C85_component`). A selection of cells
    of a table is a trap: arrow keys do nothing, and Shift with an arrow key, typing and deleting
    panic (`C85_trap`).
30. The comment "The order of modules is important" (`parse_modules.rs` 50) is not true of the shipped
    modules: only the choice matters (`C88_order`). Adding `Calculus` does change formulas that were
    read without errors: names beginning with `lim` are cut after `lim` (`C88_lim`).
31. The MathML that is shown cannot be loaded back in general: containers are put between two
    `mphantom`, spaces are `mspace` and unknown tokens `merror`, all of which `parsing.ts` reads as a
    symbol `Error`; the quotation marks of a string are doubled because the shown `mtext` contains
    them (`C90`, `C90_error`).
32. `skipWhile` (`array-utils.ts` 52-59) returns the whole array if every element is to be skipped;
    `memoize` returns `undefined` for a first call without arguments and the old result for a call
    with fewer arguments (`C92_skip_not`, `C92_memo_not`). Both are unused.
33. `greedy_choice` (`greedy_choice.rs` 25-52, unused) does not move the input behind the longest
    match, but leaves it where the last parser stopped (`C93_not`).
34. Cutting with nothing selected (`math-editor.ts` 195-204, `primitive_edit.rs` 44-65) pushes an
    edit that removes nothing: the next undo does nothing, and the redo history is lost
    (`C100_cut`, `C100_cut_event`). So does typing or pasting exactly what is selected
    (`C100_same`). The rules for `lim`, `limsup` and `liminf` (`calculus_rules.rs` 79-89) replace a
    word by itself, so that moving the caret away from it is recorded, too (`C100_echo`).
35. After a click on the left part of an element, for example of an operator with space around it, the
    caret is not drawn at the start of this element, the place that the click found, but at the end
    of the element before it (`rendered-container-element.ts` 37-48 takes the first child with that
    offset; `C105_not`).
36. Grids are checked nowhere where they come in: a document with an empty `mtable`, or pasted nodes
    with a grid without width or with an incomplete row, end the editor in every state with a panic
    of the parser, after the formula has been changed (`C109_import`, `C109_paste`). A pasted fraction
    with three cells is parsed (`threeCells`).

## Trusted base

* Lean's kernel. Axioms: at most `propext`, `Classical.choice`, `Quot.sound` (see above). No
  `sorry`, no own axioms, no `native_decide`, no `bv_decide`.
* That the Lean definitions say the same as the cited lines. Evidence: the repository's tests run on
  the model (Check/RepoTests).
* chumsky's combinators (`select`, `just`, `then`, `repeated`, `or_not`, `choice`, `end`, save and
  rewind, emit and check mode) are modelled from their documentation (`Model/Combinators.lean`);
  that this model agrees with the crate is trusted. C94 shows that the parsers built from them are
  the functions of `Model/Parser.lean`.
* serde_json and what serde derives for the clipboard types are modelled from their documentation
  (C70 shows that the model of the reader accepts exactly the texts of RFC 8259 with the right
  members); that the model agrees with the crates is trusted.
* The std collections (`Vec`, `HashMap`, iterators) and the JavaScript built-ins (`Array`, `Map`)
  are taken with their documented meaning.

## Not modelled

* wasm-bindgen and serde-wasm-bindgen glue (`web` crate), memory exhaustion, stack overflow, run
  time, the order of hash map iteration (nothing depends on it).
* The character tables of the crate `unicode_ident` and of `Intl.Segmenter`, Unicode normalisation:
  arbitrary functions in the model.
* JavaScript strings with unpaired surrogates (the glue replaces them by U+FFFD). A string is a list of
  Unicode characters.
* Frontend: CSS, the pixels drawn, how the browser makes a layout (`Geom` is arbitrary) and which
  events it sends.

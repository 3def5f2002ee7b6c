# Formal model of aftermath-editor (Lean 4)

The model covers the Rust workspace `/repo/aftermath-core` (crates `input_tree`, `caret`, `parser`,
`serialization`) and the parts of the TypeScript frontend named below. Properties are listed in
`properties.jsonl`, their status in `MANIFEST.json`, attempts to fool the theorems in
`seeded/LOG.jsonl` (`survived` is null where the build ran out of memory before any theorem failed:
such an attempt is undecided, not caught).

This file is put together by `tools/design.py` from `tools/design_head.md`, `tools/design_how.py`,
`tools/design_tail.md`, the properties, the manifest and the output of `#print axioms`.

## Layout

* `lean/Verif/Model` - the model, one definition per function of the program, each with a citation
  of file and lines.
* `lean/Verif/Spec` - specifications that do not use the functions of the model whose correctness
  they state.
* `lean/Verif/Proof` - lemmas.
* `lean/Verif/Props` - the property theorems (`C01` ...), each with a concrete case beside it.
* `lean/Verif/Check` - the repository's own tests, run on the model by the kernel. They are not
  proofs of properties; they are evidence that the model says the same as the program.

## Conventions of the model

* A Rust panic (assert, unwrap/expect, slice or index out of range, `todo!`, `panic!`, integer
  overflow with checks on, division by zero) is an explicit `Except.error p` with an enumerated
  reason `p : Panic`. A panic is terminal. The same goes for a failed `assert` or a `TypeError` in
  TypeScript.
* `&mut self` functions return the new value.
* Build profile: `aftermath-core/package.json` builds the wasm with `wasm-pack build --dev`, so
  overflow checks are on in the shipped build. The model has a parameter `cfg` (checks on or off,
  number of bits of `usize`). `usize` subtraction panics or wraps accordingly. Additions and
  multiplications of `usize` are unbounded `Nat` (simplification: they are bounded by the sizes of
  vectors that exist in memory).
* Strings are `List Char`; byte lengths use `Char.utf8Size`.
* The tree is `Node = symbol | container variant cells width`, a flat list of cells plus a width, as
  in `GridVec`. `rowWf` says that a formula is well formed: grids have positive width, full rows
  and at least one cell; fractions and roots have two cells and scripts one.
* A focus (zipper) is modelled as the code has it: row, optional parent node focus, row indices
  that are handed down and back.
* The editor state machine (`Editor.step`) takes the parser, the autocomplete rules and the
  clipboard as an environment `Env`.
* The parser interprets a grammar given as data; recursion is open (`Rec`) and closed by a bound on
  the depth that is proved to be never reached (C43).


## Properties: what is modelled, how it is proved

### C01 A row edit changes only the addressed row (proved)

Model: `InputTree::apply_edit` with the path walk of `row_mut` (Model/Edit). Spec: `rowAt`, `ReplacedAt`. Induction on the path.

Row edits of the tree replace exactly the addressed row.

Theorems: `C01_insert`, `C01_delete`, `C01_frame`, `C01_row_edit`, `C01_invalid_panics`.

### C02 Recorded row edits are invertible (proved)

Model: `apply_edits`, `inverse`. Spec: `Truthful` edits. Splice inversion, induction over the edit list.

Reversed inverted edits restore the tree; the truthfulness hypothesis is shown to be needed.

Theorems: `C02_edits_inverse`, `C02_inverse_inverse`, `C02_truth_needed`.

### C03 Inserting rows or columns into a table moves every old cell to the right place (proved)

Model: grid branch of `apply_edit` with the iterator as an explicit list state. Spec: cell at column x and row y. Induction over rows.

Cell by cell description of grid insertion and frame in the tree.

Theorems: `C03_rows`, `C03_columns`, `C03_tree`, `C03_only_tables`, `C03_offsets`, `C03_table_size`.

### C04 A grid edit can be undone by its inverse (partial)

The lazy `skip` is modelled as the no-op it is. Negation proved, and that every grid deletion panics.

The property is false of this commit; its negation is proved, for every matching non-empty grid: the deletion always panics.

Theorems: `C04_false`, `C04_grid_delete_panics`, `C04_undo_of_grid_insert_panics`, `C04_tree_panics`, `C04_partial`.

### C05 Positions are totally ordered, and Equal means the same position (proved)

Model: the comparison literally. Proof through a key function into lists with lexicographic order.

Comparison of positions is a total order.

Theorems: `C05_eq_iff`, `C05_swap`, `C05_trans`, `C05_le_total_order`.

### C06 Position order is document order (proved)

Spec: `positions`, the recursive enumeration in reading order. Induction on the tree.

Reading order enumeration is strictly increasing and lists exactly the valid positions.

Theorems: `C06_sorted`, `C06_mem`, `C06_nodup`, `C06_cmp_index`.

### C07 Pressing Right visits every caret position exactly once (proved)

Model: `move_caret`, `move_horizontal`. Next element of the reading order list.

n presses of Right lead to the n-th position in reading order, for every n, tree and build profile.

Theorems: `C07_right_is_next`, `C07_right_visits_all`, `C07_reaches`.

### C08 Left undoes Right and Right undoes Left (proved)

Same; the overflow panic of checked builds is part of the statement.

Both directions, with the exact condition for the overflow panic of checked builds.

Theorems: `C08_right_left`, `C08_left_right`.

### C09 Arrow keys keep the caret on a valid position (proved)

Case analysis over moves, induction on the ancestor chain.

All four keys from any valid caret; the only panic is characterised exactly.

Theorems: `C09_arrow_keys`, `C09_release`, `C09_word_line`.

### C10 Up and Down change the table row and keep the column (proved)

Spec by table coordinates. Induction on the ancestor chain.

Up and Down by table coordinates.

Theorems: `C10_script_exit`, `C10_up`, `C10_down`, `C10_enclosing`, `C10_root`, `C10_up_down`.

### C11 The range spanned by two positions covers both and is as deep and small as possible (proved)

Model: `range_from_positions`. Key order of C05.

Deepest common row, coverage, direction and minimality.

Theorems: `C11_span`.

### C12 A caret over any two valid positions has a well-defined selection (proved)

Model: `CaretSelection::from_positions`.

Grid selection exactly for two different cells of one table, otherwise the row range of C11.

Theorems: `C12_selection`, `C12_interval`.

### C13 A grid selection is the bounding rectangle of its two corner cells (partial)

Model: `GridRectangle`, `GridView`. Arithmetic on div and mod; negation with witness; exact conditions.

False of this commit (negations proved); the partial theorems give the exact conditions under which corners and view size are right.

Theorems: `C13_false`, `C13_view_size_false`, `C13_corners_partial`, `C13_view_size_partial`, `C13_indices`, `C13_empty`, `C13_view_cells`.

### C14 Focus navigation is consistent (proved)

Invariant: a focus is the walk-down of its indices.

Every focus reached by navigation is the walk-down of its indices.

Theorems: `C14_walk_down`, `C14_walk_down_invalid`, `C14_navigation`, `C14_child_parent`, `C14_parent_child`, `C14_position_roundtrip`, `C14_position_roundtrip'`, `C14_range_roundtrip`, `C14_range_roundtrip'`, `C14_grid_roundtrip`, `C14_grid_roundtrip'`.

### C15 Deleting a selection removes exactly the selected nodes (proved)

Model: `remove_at_caret` and the edit builder. Spec: `ReplacedAt`.

Any removal mode, any non-empty row selection.

Theorems: `C15_delete_selection`.

### C16 Backspace and Delete never lose more than one symbol (proved)

Spec: symbols of the document in reading order.

Exact classification of Backspace and Delete for every caret, with the exact panic condition of checked builds.

Theorems: `C16_delete_key`, `C16_at_most_one_symbol`.

### C17 After a deletion the caret is on a valid position (proved)

Follows the classification of C16.

Validity after every removal; the panic condition of checked builds is characterised.

Theorems: `C17_valid_after_delete`.

### C18 Typing replaces the selection and puts the caret behind the inserted symbols (proved)

Model: `insert_at_range`, builder, `insert_nodes_at_caret`.

Insertion of nodes and symbols.

Theorems: `C18_insert_nodes`, `C18_type`.

### C19 Typing a symbol and pressing Backspace restores the formula (proved)

C18 and C16 together, induction on the number of symbols.

n symbols, n times Backspace.

Theorems: `C19_type_backspace`, `C19_one`.

### C20 Undo/redo behaves like a history of snapshots (proved)

Editor state machine over all public calls; forward simulation to a history of whole formulas.

Every run of editor operations refines a history with a cursor.

Theorems: `C20_history`, `C20_undo_redo`.

### C21 Undo followed by redo is the identity (proved)

Invariant of reachable editors: both stacks are truthful for the present formula.

Every reachable editor.

Theorems: `C21_undo_redo`, `C21_redo_undo`, `C21_undo_insert`.

### C22 Undoing everything returns to the empty formula (proved)

Same invariant, induction on the stack.

Every reachable editor, any number of steps.

Theorems: `C22_undo_all`.

### C23 An edit clears the redo history; undo and redo move one step (proved)

Refinement of `UndoRedoManager` to a list with a cursor.

Refinement of the undo manager to a list with a cursor.

Theorems: `C23_manager`, `C23_lifo`.

### C24 The syntax tree shown always belongs to the current formula (proved)

Invariant of the cache over all runs.

Every reachable editor.

Theorems: `C24_fresh`.

### C25 Moving, selecting and querying do not edit the formula (proved)

Case analysis over calls.

Queries never change the formula; moves only by an autocorrection.

Theorems: `C25_queries`, `C25_moves`, `C25_moves_no_token`.

### C26 The caret always points into the formula (partial)

Calm runs: those with valid arguments in which replacements and direct splices leave the caret valid (`Landed`). Invariant by induction over runs; negation with witness.

False of the code (witness: accepting a completion leaves the caret at offset 8 of a row of length 1). Proved: formula and caret are valid in every run with valid arguments in which each replacement of a token and each direct splice leaves the caret valid. C63 is about the formula alone and needs no such condition.

Theorems: `C26_calm_partial`, `C26_not`.

### C27 No editor call panics (partial)

Per-call theorems for reachable states, exact panic condition in calm states, ten witnesses of reachable panics.

False of the code: ten independent panicking call sequences. Proved: undo, redo, select_all, finish_selection never panic in reachable states; in calm states the panicking calls are exactly those of Op.Panics, of C27_splice and, with a completed token left of the caret, of LeavePanics; C74 has the exact panics in all states.

Theorems: `C27_history_partial`, `C27_exact_partial`, `C27_splice`, `C71_panics`, `C71_panics_other`, `C74`, `C27_not`.

### C28 A range tracked through edits in its own row keeps marking the same content (proved)

Model: `MinimalInputRowRange::apply_edit`. Arithmetic on offsets with content on both sides as spec.

Every range, forwards or backwards, every edit of its row.

Theorems: `C28_insert`, `C28_delete`.

### C29 A range inside an element is tracked through edits of an enclosing row (partial)

Same; negation with witness, exact condition.

False of this commit: tracking through edits of the root row panics. The exact condition under which other enclosing rows are handled correctly is proved.

Theorems: `C29_not`, `C29_root_panics`, `C29_insert_partial`, `C29_delete_partial`, `C29_unrelated_partial`.

### C30 Autocomplete suggestions are sound (proved)

Model: `AutocompleteRule::matches`, `indices_of`. Spec: symbols directly left of an offset.

Every rule, row, offset; the reported length and completeness for single ASCII characters.

Theorems: `C30_sound`, `C30_ascii`.

### C31 Autocomplete suggestions are complete (proved)

Same.

Every ASCII rule and every row without empty symbols; empty symbols panic.

Theorems: `C31_complete`, `C31_empty_panics`.

### C32 The autocomplete selection is always a listed match (proved)

Model: `AutocompleteState` and the calls of the editor.

Every editor and list; with two matches of one rule moving down gets stuck (C32_stuck).

Theorems: `C32_open`, `C32_move`, `C32_stays`, `C32_stays_exact`, `C32_stuck`.

### C33 Backspace at the start of the formula does nothing (partial)

Model of both build profiles.

False for the shipped dev build: the keys panic for every formula. Proved for release builds.

Theorems: `C33_reports`, `C33_release_partial`, `C33_root_edge`, `C33_dev_panics`.

### C34 Accepting an autocompletion replaces exactly the matched symbols (proved)

Editor calls.

Every editor with a well-formed formula.

Theorems: `C34_accept`.

### C35 Autocorrect fires when the caret leaves a completed token (partial)

Model: `apply_autocorrect`. Exact behaviour per token offset.

False of this commit. The exact behaviour for each token offset is proved.

Theorems: `C35_fires_partial`, `C35_too_early`, `C35_panics`, `C35_not`.

### C36 Typing never triggers autocorrect (proved)

Editor calls, with the panic condition.

Every well-formed formula and row selection; pasted nodes well formed.

Theorems: `C36_type`, `C36_type_total`, `C36_paste`.

### C37 Copied nodes survive the clipboard format (partial)

Model: serde_json's writer and reader for the clipboard type, with the recursion limit of the reader (Model/Json). Round trip by induction.

False of this commit for 21 or more nested containers (serde_json recursion limit). Exact for well-formed nodes: read back iff at most 20 nested containers. Injectivity proved without restriction, and that the text is never read as other nodes (C37_same).

Theorems: `C37_roundtrip_partial`, `C37_too_deep`, `C37_injective`, `C37_same`, `C37_not`.

### C38 Copy then paste over the same selection changes nothing (partial)

C37 together with C15 and C18.

Proved for at most 20 nested containers in the selection; beyond that cut and paste loses the nodes (C38_cut_loses).

Theorems: `C38_copy_paste_partial`, `C38_cut_paste_partial`, `C38_cut_loses`.

### C39 Pasted data is well formed (partial)

Same reader.

False of this commit: every shape with usize widths is accepted and a later key panics. Proved for texts written by copy.

Theorems: `C39_own_text_partial`, `C39_widths_partial`, `C39_any_shape`, `C39_not`.

### C40 The printed form of a formula determines it (proved)

Model: `Display` of rows, nodes and grids, with the division by the width. Unique decoding by induction.

C40_total: printing works exactly when all widths are positive (division by zero otherwise).

Theorems: `C40`, `C40_total`, `C40_wf`.

### C41 Syntax node names and ids are in one-to-one correspondence (proved)

Model: `SyntaxNodeNameMap` with hash maps as lists without repeated keys and the cast to u32.

NameMap with the wrapping u32 counter; for up to 2^32 distinct names; the bound is shown to be necessary.

Theorems: `C41`, `C41_stable`, `C41_bound_needed`, `C41_path`.

### C42 2D and linear grid indices agree (proved)

Model: `Index2D`, `GridVec`.

Index arithmetic of grids.

Theorems: `C42_roundtrip`, `C42_addressable`, `C42_other_width`, `C42_get`, `C42_set`, `C42_table`.

### C43 Parsing never fails (proved)

Model: the Pratt parser over a grammar as data. The bound on recursion is shown to be sufficient; results do not change with larger bounds (Proof/ParseMono, ParseTotal).

For every rule set without empty symbol sequences in which each container kind is parsed by some rule; C43_shipped is the instance for the shipped collections. The chumsky combinators are taken with PEG semantics; termination is a bound on the recursion depth beyond which the result is constant.

Theorems: `C43`, `C43_parse`, `C43_shipped`.

### C44 The syntax tree covers the whole row (proved)

From the layout invariant `Fills`.

Theorems: `C44`.

### C45 Syntax tree ranges are contiguous and nested (proved)

Spec: `Shaped`. Layout invariant `Fills` by induction on the depth of recursion.

Shaped is the specification, in Spec/Syntax.lean.

Theorems: `C45`.

### C46 The syntax tree is lossless (proved)

Spec: `SNode.text` and `rowText`.

SNode.text and rowText are separate readings of tree and row, in Spec/Syntax.lean.

Theorems: `C46`.

### C47 Every row of the formula can be found in the syntax tree (proved)

Model: `getNodeWithRowIndices` of `src/core/index.ts`.

The walk is getNodeWithRowIndices of src/core/index.ts.

Theorems: `C47`.

### C48 Binding powers decide nesting (proved)

Spec: `Reads` (tokens of an expression), `PTree` (nesting), `Nested`. The parse is the unique nested tree over the tokens.

For every rule set meeting Good and every row that reads as an operator expression (Reads, Spec/Expression.lean): the tree is the unique one with the same tokens that is nested by binding powers. C48_flat, C48_left_chain, C48_right_chain and C48_prefix spell out flat chains, chains of equal power and prefix operators.

Theorems: `C48`, `C48_tree`, `C48_brackets`, `C48_flat`, `C48_left_chain`, `C48_right_chain`, `C48_prefix`.

### C49 Later rules take priority (proved)

Spec: `Chosen`.

Chosen says that the rule is the last one registered, of its role, that parses at this position. C48 shows that the tree is made of the chosen rules.

Theorems: `C49`, `C49_found`, `C49_atom`.

### C50 An empty row parses to a missing token and error nodes only appear for errors (proved)

Spec: `CleanRow` (a well-formed expression in every row), `ErrorFree`. Both directions.

An equivalence. Hypothesis ErrorsApart: no rule has the name of an error node; proved for the shipped rules (createParser_apart).

Theorems: `C50_empty`, `C50`, `C50_shipped`.

### C51 Selection calls move exactly the end they should (proved)

Editor calls.

About calls that return; C26 and C27 say when they do. C51_shift and C51_select_all ask for a well-formed formula.

Theorems: `C51_move`, `C51_shift`, `C51_start`, `C51_extend`, `C51_select_all`.

### C52 The printed form of a syntax tree determines it (proved)

Model: `display_syntax_tree.rs`. Unique decoding by induction.

Hypotheses on the name map: names without separators and no name with two ids; proved for the shipped rules.

Theorems: `C52`, `C52_shipped`.

### C53 Syntax trees only use names of the rule set (proved)

Model of the rule collections with the registration of names; general invariant over the parser (Proof/TreeNames).

Theorems: `C53`, `C53_shipped`.

### C54 When MathML can be read, and with which errors (proved)

Model: `toMathLayout` of `src/mathml/parsing.ts` over DOM trees. Spec: `Dom.Reads` (which elements are read), `Dom.Complains`, `Dom.BareScript`, `Dom.EmptyTable`. Induction on the size of the document.

C54_not: some documents throw, and an empty mtable is read without error into a formula that is not well formed.

Theorems: `C54_throws`, `C54_errors`, `C54_wf`, `C54_wf_iff`, `C54_not`.

### C55 What is read is what the document means (proved)

Spec: the relation `Means` between documents and formulas. Refinement in both directions.

Theorems: `C55`, `C55_exists`, `C55_unique`.

### C56 Setting the attribute mathml (partial)

Model: `attributeChangedCallback` of the component on top of the editor model.

Holds while the caret is in the outermost row. The program panics when the caret is in a cell (C56_nested_panics), keeps a caret beyond the end of a shorter formula (C56_caret_lost), and cannot parse an empty mtable (C56_empty_table_panics).

Theorems: `C56_set_partial`, `C56_caret`, `C56_tree`, `C56_nested_panics`, `C56_empty_table_panics`, `C56_caret_lost`.

### C57 Every formula can be shown (partial)

Model: `MathMLRenderer` with the table of renderers of `src/mathml/renderer.ts` and the assertions of the element constructors. `Made` (Proof/Made) lists the shapes of nodes that the parser makes; induction over it (`made_spaced`, `made_row_spaced`, and `made_clean` for trees without errors: every operand takes the spaces after it). Spec: `SpacedScript`, `ScriptThenSpace`, `SpaceThenScript`.

False of this commit: a space after a script makes the renderer throw, for every formula (C57_throws). The exact condition on the tree (C57_partial), the exact condition on a formula without errors (C57_clean) and a sufficient one on any formula (C57_row_partial) are proved. For any map of names, C57_made says exactly when the renderer can be made and C57_makes what it then has. For any tree, fractions, roots and scripts that are shown have two parts (C57_two).

Theorems: `C57_setup`, `C57_made`, `C57_makes`, `C57_two`, `C57_partial`, `C57_row_partial`, `C57_clean`, `C57_throws`, `C57_not`.

### C58 Every caret can be drawn (proved)

Model: `render-result.ts`, the `getCaretPosition` methods and `renderCarets` over an arbitrary `Geom` (what the browser reports). Invariant `Laid`: children cover the range of their parent without gaps, and cells are laid out like rows of their own.

Theorems: `C58_row`, `C58_position`, `C58_draw`, `C58_calm`.

### C59 A click gives a position of the formula (partial)

Invariant `OnRow` through the search with its work list. Spec: `ScriptCell`, `ScriptInCell`.

False of this commit for formulas in which a cell is just a base with a script (C59_not); proved for all others.

Theorems: `C59_partial`, `C59_row_partial`, `C59_drawn_partial`, `C59_not`.

### C60 A click gives the closest position (partial)

Invariant of the work list: every element below the start is either seen, waiting, or below one that is too far away.

C60_start holds always. The others are for the formulas of C59_partial; for the excluded ones the result need not be a position at all.

Theorems: `C60_start`, `C60_nearest_partial`, `C60_exact_partial`, `C60_row_partial`.

### C61 What is shown is the formula (partial)

Model: `src/component/math-editor.ts`, one step per event, on top of the editor, parser, renderer and layout models (Model/Component). Spec: `InSync`, `Event.Redraws`, `Event.Selects`.

False of this commit (C61_not: a drag from behind `sum` leaves the old formula on the screen). Proved for every event except a selection with the pointer that replaces a token.

Theorems: `C61_redraws`, `C61_partial`, `C61_selects`, `C61_new`, `C61_editor`, `C61_not`.

### C62 Which events throw (partial)

Combines C26, C27, C36, C56, C57, C58 and C59 for each event (Proof/Events). Spec: `Component.Calm`, `Kept`, `Unshowable`.

That no event throws is false (C62_not). Exact conditions in states where no token is about to be replaced (Component.Calm); C62_calm chains them. C73 has the states behind a token, attribute changes with the caret in a cell, and clicks with scripts in cells.

Theorems: `C62_call_partial`, `C62_arrow_partial`, `C62_key`, `C62_history_partial`, `C62_type_partial`, `C62_delete_partial`, `C62_cut_partial`, `C62_paste_partial`, `C62_click_partial`, `C62_select_partial`, `C62_set_partial`, `C62_new`, `C62_calm`, `C62_not`.

### C63 The formula is always well formed (proved)

The invariant of C26 without the caret (`Anchored False` in Proof/Calm): all commands of the history have rows that fit.

For runs whose formula fits the address space (automatic without release overflow: C63_run).

Theorems: `C63_formed`, `C63_run`, `C63_copy`.

### C64 Typed input is applied in order (proved)

Model: `Component.handle` (Model/Handler), which tells exceptions from panics; `handle_fine` shows that without exceptions it is `Component.step`. Induction on the queue and on the events. Spec: `InputEvent.calls`, `inputsOf`, `timersLeft`, `Event.Typing`.

C64_not: with a key between the text and its timer the order is lost.

Theorems: `C64_queue`, `C64_others`, `C64_timer`, `C64_left`, `C64_typing`, `C64_not`.

### C65 Selecting with the pointer (proved)

From C51 and induction on the moves.

C65_drag is about events that do not throw (C62 says when they do). C65_double and C65_not are the two things that one would not expect.

Theorems: `C65_drag`, `C65_idle`, `C65_flag`, `C65_double`, `C65_not`.

### C66 What exceptions leave behind (partial)

Every outcome of `Component.handle` is a sequence of editor calls (Proof/HandlerLeft), so that invariants of the editor survive. Exact conditions from C57 and C27, undo from C21.

That exceptions are harmless is false (C66_not). C66_call_partial and C66_undo are for states where no token is about to be replaced; C73_call has the other ones.

Theorems: `C66_fine`, `C66_editor`, `C66_keeps`, `C66_recover`, `C66_call_partial`, `C66_undo`, `C66_not`.

### C67 The page says what the formula says (proved)

Model: `getElements` of the rendered elements (Model/Render). Induction over `Made` with the formula that a part shows (`Shows`, Proof/Dom), counting by induction over the tree (Proof/DomMarks), unique reading of signs (Proof/DomInjective). Spec: `rowSigns` for formulas, `eltsSigns` for elements, `ChildrenFit`, `tokenTags`.

C67_same needs symbols of one character: the page has no mark between symbols of one token.

Theorems: `C67_signs`, `C67_same`, `C67_tokens`, `C67_marks`, `C67_clean`.

### C68 Where carets and selections are drawn (proved)

Model: `getViewportSelection` (Model/Layout). Induction over `Laid`. Spec: `LeftToRight`, `MakesUp`, `IsExtent`, `InRow`, `FirstInRow`, which use positions reported by the browser but none of the functions that compute positions.

C68_span assumes LeftToRight of what the browser reports; the others assume nothing about it.

Theorems: `C68_swap`, `C68_caret`, `C68_span`, `C68_extent`, `C68_place`, `C68_first`.

### C69 The shipped parser reads the usual notation (proved)

Spec: `Formula`, `Formula.Writes`, `Formula.write`, `Conveys` (Spec/Notation), which know the levels but nothing of the parser. Spaces belong to the token before them, or to the first token. For each place in a written row only one rule of each role can start there (`starts`, Proof/NotationRules), so the tokens are known (Proof/NotationTokens); the tree that follows the levels is nested according to the binding powers (Proof/Notation), and by C48 the parser finds exactly that tree. Uniqueness: names have different numbers (Proof/NotationUnique).

The levels are those of the shipped rules; see DESIGN.md for where they are not the usual ones.

Theorems: `C69`, `C69_few_brackets`, `C69_unambiguous`.

### C70 Which texts can be pasted (proved)

Model: serde_json's reader in two steps, text to document and document to nodes (Model/Json). Spec: the grammar of RFC 8259 as relations between documents and texts, and which documents stand for which nodes (Spec/JsonText). Both directions by induction over the fuel of the reader and over the grammar (Proof/JsonText, Proof/JsonValues, Proof/JsonNodes). The text that is written is given exactly by a grammar of its own, `ClipText`: which escapes, which fields and in which order (Proof/JsonClip, by induction over the nodes).

How deep: see Describes in Spec/JsonText; the limit is that of serde_json. C70_paste_refused assumes that computing the autocompletions does not panic (C27).

Theorems: `C70_reads`, `C70_unique`, `C70_unambiguous`, `C70_paste_same`, `C70_paste_refused`, `C70_refused_only`, `C70_copied`, `C70_text`, `C70_copied_text`.

### C71 What autocorrection adds to a call (proved)

Compares the step with the step in the same state without rules (`Env.plain`). Each call is split into the edits it asks for, the same with and without rules, and what follows (Proof/Pending); the edits are moving, editing in the row of the token, or dissolving the element around it (Proof/PendingSteps). `splice_exact` gives the exact panics of replacing. Spec: `Stays`, `LeavePanics`, `LosesToken` (Spec/Pending).

Left open as stated: LosesToken. GoodNodes: pasted nodes are well-formed and fit.

Theorems: `C71_unrelated`, `C71_same`, `C71_cases`, `C71_move`, `C71_edit`, `C71_dissolve`, `C71_panics`, `C71_panics_other`.

### C72 What the parser makes of any row (proved)

Spec: `ReadsAny`, which reads a row from left to right by looking only at which roles of rules apply at a position, and `ETree.Nested`, which compares the powers of neighbouring operators (Spec/AnyRow). Every row has a reading (`reads_exists`) and only one (`ReadsAny.unique`); nested trees over a sequence are unique (`enested_unique`); the loop of the Pratt parser builds a nested tree (`loop_any`, `operand_any`, Proof/AnyTree).

C48 for all rows, with the errors. C72_tree: a nested tree over the reading is what is returned.

Theorems: `C72`, `C72_tree`, `C72_brackets`, `C72_shipped`, `C72_side_by_side`, `C72_forgotten`.

### C73 How every event ends (proved)

`ShowEnds` has one constructor for each way in which showing a formula ends (Props/Ends). From C57 (what can be rendered), C58 (carets that are drawn), C63 (the formula stays well-formed) and the exact panics of C27 and C71. `C73_right` follows the caret through a replacement; `C73_lost` is a run in which the editor ends.

C73_call, C73_show and C73_set also for states in which the caret is lost; C73_panics and C73_ends for the others and outside of LosesToken (C74 has those). C73_lost: the Right key ends the editor.

Theorems: `C73_panics`, `C73_right`, `C73_show`, `C73_call`, `C73_ends`, `C73_set`, `C73_click`, `C73_lost`.

### C74 The panics of all calls in all states (proved)

Invariant `Anchored False` (Proof/Calm), which does not need the caret. Spec: `Op.AllPanics` with `TokenLeft`, `ReplacePanics`, `LooksAt` (Spec/Tokens). Matching a rule against any symbols is exact (`matches_exact`), hence the replacement is (`apply_exact`), hence the call (`token_step_panics`, Proof/Tokens).

C74 has no condition on the caret, the symbols or the positions passed; rules consist of ASCII characters, pasted nodes are well-formed. C74_tokens says it in simpler words for symbols of one character.

Theorems: `C74`, `C74_tokens`, `C74_lost`, `C74_stuck`, `C74_select_all`.

### C75 Which words are suggested and completed (proved)

`suggested` and `chosen` (Spec/Words) are the specification. Both the sorted matches and `suggested` are sorted and agree for every length, hence are equal (`sorted_filter_ext`, `sort_suggested`, Proof/Words). `C75_word` compares endings of the text with endings of the word; `C75_typed` by induction on the typed text; `C75_accept` from `C75_list` and the splice lemmas.

C75_shipped, C75_shipped_kept, C75_typed_shipped and C75_completions are for the rules that are shipped: a table of 15 rules evaluated by decide, for all formulas, texts and states.

Theorems: `C75_list`, `C75_completed`, `C75_word`, `C75_typed`, `C75_shipped`, `C75_shipped_kept`, `C75_typed_shipped`, `C75_accept`, `C75_completions`.

### C76 How every event ends, in every state (proved)

`Event.Kills` and `Event.Throws` (Spec/Endings) say it in terms of the exact panics of calls (C74), of `Unshowable`, and of a selection that does not exist in the drawn formula. Invariant `Component.Formed`; `layoutPosition_total` and `renderCaret_iff` (Proof/AnyEnd) by induction on what is drawn. `C76_stale` is a concrete history.

Builds without overflow checks: as long as the formula fits into memory.

Theorems: `C76`, `C76_shown`, `C76_proper`, `C76_stale`.

### C77 A formula that is typed or loaded is shown with its meaning (proved)

Spec/EndToEnd: `UpToDate`, `Presents`. One task by C75 and C73 (`handleTask_typed`), then by induction on the queue and on the events (`handleTasks_typed`, `handleAll_typed`); C64 says that the queue is empty in the end. A tree without errors in which a script has spaces comes from a row with a space after a script (`made_clean`, Proof/RenderClean), so other rows can be shown; `write` never makes such a row (`write_calm`). A tree that conveys a formula has no error nodes (`conveys_errorFree`), so nothing is marked (C67).

The browser splits a string of one character into that character. When a document is loaded, the caret must be in no element and be a place of the new formula (else see C73).

Theorems: `C77_typed`, `C77_type`, `C77_load`, `C77_session`, `C77_few_brackets`.

### C78 Exactly the rows of the notation are read without errors (proved)

Spec/Notation: `Writes`, `PlainRow`. From left to right by C50: a clean row is a sequence of tokens (`Reads`); each token is taken apart into the part of the row it covers (`Cut`, `ruleParse_inv`, `atom_token`, `post_writes`, `op_writes`), and the tokens of a nested tree are a formula between operators of all levels that the tree allows (`tree_segment`, by induction on the tree). Brackets by induction on `CleanFrom`, cells by induction on `CleanRow`. From right to left by C69 and `conveys_errorFree`.

The shipped rules, a table of letters with the usual properties (Xid.Usual). Symbols of several characters (grapheme clusters) are outside of the notation.

Theorems: `C78`, `C78_shown`.

### C79 The effort of parsing (proved)

Model/Effort counts the calls of `pratt_parse`. That it does so is `C79_counted`: the combinator model of C94 increments a counter in each call, and the refinement proof carries the number along (`Runs`). For any row (`pratt_anyRow`): each rule at a place costs at most 2 K^w, w the weight of what is left, since brackets and cells are smaller and A+1 <= K^a, B+1 <= K^b give A+B+1 <= K^(a+b); the loops are geometric sums. Upper bound: induction on the depth of recursion, with the invariant effort + weight of what is left <= 1 + weight of what was there (`Bounded`); a rule that fails costs nothing unless it is the one for brackets at a bracket, which cannot be in a clean row (`before_noBracket`); an infix operator that is refused is read twice, which costs nothing without scripts (`infix_effort`). Rows with errors and without brackets (`freeBounded`): asking costs nothing and nothing but operators is read twice; the call for a missing operator is paid for by the token before the gap, which the invariant carries along as a credit. Closed brackets behind an unknown character: they are read when `parse_unknown` asks for an operand and again as an argument, T(n+1) = 1 + 2 T(n) (`point_call`). Opening brackets: every rule fails at every position, T(i) = 1 + 2 (T(i+1) + ... + T(n)) (`open_call`). Scripts: the operator is read once behind the sign, refused, and read again (`tower_effort`). Depth: the efforts agree wherever the shallower run has a result (`SameEffort`).

The effort is defined beside the model of the parser, function by function (Model/Effort); C79_counted says that it is the number of calls counted in a run of the parser as it is written with combinators. C79 is the upper bound for clean rows, C79_free the same for rows with errors but without brackets, C79_bound the one for all rows; C79_brackets, C79_points and C79_scripts show that the hypotheses are needed; C79_depth shows that the bound of the depth of recursion plays no role.

Theorems: `C79`, `C79_depth`, `C79_brackets`, `C79_scripts`, `C79_bound`, `C79_counted`, `C79_free`, `C79_points`.

### C80 What is drawn for the caret (proved)

Model/Picture: the styles of the caret line and of the boxes; Spec/Picture: `Pictured`, what is visible wherever the element of the caret is placed. From the parts of a selection (C68) by rational arithmetic (`pictured_row`, `pictured_grid`); the selection of a caret in a table by C12; columns and rows as intervals that follow each other (`intervals_span`).

Model/Picture extends the model of drawing (which only said whether it throws) by the styles that are set; Spec/Picture says where the browser puts elements with these styles. C80_centred is the case in which selected cells stick out.

Theorems: `C80_caret`, `C80_row`, `C80_line`, `C80_grid`, `C80_rectangle`, `C80_table`, `C80_component`, `C80_centred`.

### C81 A change inside of an element stays inside of it (proved)

Spec/Locality: `TreeReplaced`, `ElemReplaced`, `EltReplaced`, along the path of the row. The parser is run on two rows that are equal up to the contents of cells (`SameRow`), in lockstep (`InStep`, `both_*`): the trees are equal up to the trees of cells (`Like`). Hence by induction on the path only the tree of the row differs (`replaced_tree`). Rendering by induction on that (`render_swapped`); a renderer looks at the children of a node only through their own elements.

C81_tree is about every grammar that is well-formed, the others about the grammar and the renderers that are shipped.

Theorems: `C81_tree`, `C81_shown`, `C81_page`, `C81_part`, `C81_rows`, `C81_typed`.

### C82 The editors of a page do not disturb each other (proved)

Model/Page: the list of editors (`none` after a panic) and the clipboard. `C82_alone` by induction on the events, against `Page.eventsOf`, the events of one editor with the pasted data filled in. Undo after loading: the ideal history of C20 after two splices (`load_history`, `load_twice`), then by induction on the number of undos.

Formulas inside of formulas are not modelled. C82_paste: at most 20 containers are nested in what is copied (C37), and asking for completions does not panic.

Theorems: `C82_alone`, `C82_paste`, `C82_clipboard`, `C82_load`, `C82_undo`.

### C83 Moving an editor to another place of the document keeps it (partial)

From how loading a document ends (`load_ends` of C73); the witness is a typed `a`.

False: connectedCallback sets the formula of the attribute again, so everything that was edited is lost, and the editor ends if the caret is in an element or behind the end of that formula. C83_move_partial says exactly what happens. Missing: that the formula is kept.

Theorems: `C83_move_partial`, `C83_not`.

### C84 What can be written without pasting (proved)

`Writable` is an inductive grammar of formulas. Invariant over all calls: the formula and all formulas along the undo and redo stacks are writable (`AllWritable.step`); a suggestion needs two symbols (C30), so without empty symbols its word has two characters and its result is writable. The converse by induction on the grammar, writing from the right to the left in front of any row (`write_front`), with C75 for the words `sqrt` and `vector`.

The texts of inserted symbols are those of any set that has all single characters and not the empty text. With empty symbols, which the frontend never inserts, a fraction can be made.

Theorems: `C84`, `C84_nodes`, `C84_keeps`, `C84_component`.

### C85 What can be selected with the keyboard (proved)

Invariant over all calls but three: the caret and all carets along the undo and redo stacks are single positions (`Unselected.step`), lifted to events with exceptions by a general lemma (`handleAll_invariant`). Any range: select all and Left go to the start, Right reaches its start (C07), then by induction every Shift and arrow key moves the end of the shown selection by one node (`key_grow`, `key_shrink`).

The component has no key for select_with_caret or select_all (disagreement 29); C85_select is about the calls.

Theorems: `C85`, `C85_component`, `C85_select`, `C85_trap`.

### C86 The syntax tree and the page grow linearly with the formula (proved)

The size of a tree is the sum of what its tokens add (`ETree.node_size`, using C72). By induction on how a row is read (`reads_small`) with a different constant for each state of the reader: a missing operand is always followed by an operator, a missing operator by an operand, so each is paid for by the next token. A token is paid for by its symbols, cells and brackets by induction on the weight (`rule_small`, `pratt_small`). Sharp for rows `!∑!∑…`. Without errors: induction on `Made`. DOM: induction on rendered elements (`elements_all`).

Theorems: `C86`, `C86_sharp`, `C86_clean`, `C86_page`.

### C87 Which formulas are a single name, number or string (proved)

If: the token rule is chosen (`one_token`), and C72 gives the tree. Only if: inversion of `Made` gives the token parser (`one_token_inv`), whose result is inverted; that no prefix operator such as `lim` is at the beginning comes from the reading of C72 (`leaf_no_prefix`).

Theorems: `C87_name`, `C87_number`, `C87_string`, `C87_empty`.

### C88 A parser can be made from any choice of the modules (proved)

A subset of the modules is `Good`, since all container rules are built in. Order: two rules of different modules with the same role never both begin at the same symbol (`Spread`, a check of the finite table of rules by their first symbol), so the chosen rule and, by induction, the whole parse are the same (`SameIter`, `parse_same`). More: induction over the error-free parse (`row_more`); a rule that is chosen stays chosen (`chosen_more`), only `lim` can take precedence over a name.

C88_lim shows by a witness that the exception about lim is needed.

Theorems: `C88`, `C88_order`, `C88_more`, `C88_lim`.

### C89 The keys for undo and redo walk through the formulas of the session (proved)

The agreement of the editor with the ideal history (C21, `Agree`) is kept by each key, whatever else has happened. `Anchored` (formulas well formed, carets stored in the undo and redo entries valid) is kept too, so showing never panics. Typing: every character pushes exactly one entry with the caret before it (`insert_recorded`, `typed_run`).

Theorems: `C89_history`, `C89_survives`, `C89_typed`, `C89_back`, `C89_return`, `C89_formulas`.

### C90 Which formulas survive being loaded from the MathML that is shown for them (proved)

By induction on the syntax tree, what is rendered is made of tokens and rows only, or it has an element that cannot be read (`mphantom`, `mspace`, `merror`) at a place where reading gets to (`render_damage`). Such an element leaves a symbol `Error`, which is longer than one character. Tokens are read back character by character, with two more symbols for each `mtext` (`plains_read`); C67 says that the characters are those of the formula.

Theorems: `C90`, `C90_loads`, `C90_error`.

### C91 The helpers for arrays, maps and the popup do what their names say (proved)

Loop invariant of the binary search: everything left of `low` is too small, everything right of `high` too big; the interval halves. groupBy by induction from the right.

Theorems: `C91_search`, `C91_remove`, `C91_take`, `C91_range`, `C91_zip`, `C91_equals`, `C91_group`, `C91_default`, `C91_popup`.

### C92 skipWhile skips, and a memoized function returns what the function returns (partial)

The two searches for the first failing element are compared with the unique splitting place (`splits_unique`). For memoize the kept arguments and value belong together after the first call that runs the function.

False of this commit: skipWhile returns everything if all elements satisfy the condition, and memoize mistakes a first call without (defined) arguments, or a call with fewer arguments, for a repeated one. Exact conditions are proved.

Theorems: `C92_skip_partial`, `C92_skip_not`, `C92_memo_partial`, `C92_memo_not`.

### C93 greedy_choice takes the longest match (partial)

`max_by` returns the last of the greatest elements (`maxBy_best`, induction from the right).

False of this commit: the result is that of the longest match, but the input stays where the last parser of the list stopped (C93_not). The result and that place are proved exactly.

Theorems: `C93_partial`, `C93_not`.

### C94 Going back after failed attempts and asking before parsing do not change what is read (proved)

Refinement: each combinator expression yields, in both modes, what the function of `Model/Parser.lean` returns (`Yields`, `Fails`), by one lemma per combinator; then induction on the depth of recursive calls (`pratt_of`). With totality (C43) the two parsers are equal.

Theorems: `C94`, `C94_shipped`, `C94_check`.

### C95 What stands in brackets is read like a row of its own (proved)

Two runs side by side (`pratt_step`): parsing `r` alone and parsing it between the brackets take the same steps, by induction on the depth of recursive calls; the invariant is that the rest of `r` is balanced, so neither run reads the closing bracket before the end. A second induction (`pratt_find`) over the run for the whole row shows that no token reaches over the opening bracket, so it is read by a rule for brackets, and that every node made later keeps the node.

Empty brackets are read by rules of their own. The hypotheses are needed, see the examples.

Theorems: `C95`, `C95_alone`, `C95_names`.

### C96 A change within brackets changes nothing outside of them (proved)

The runs for both rows side by side (`pratt_twins`), by induction on the depth of recursive calls. A place in one row corresponds to the same place in the other one before the brackets, and to the one with the same distance to the end behind them. Nodes read between corresponding places are the same, the same but moved, or they have the brackets in them and are related by `SNode.Swapped`; every way to build nodes keeps this (`Kins.cons`). At the opening bracket both runs read the brackets, by C95. For this the second row may not be shorter, because loops are bounded by the length of the row; the relation is symmetric, so this is enough.

Like in C95, the brackets are not empty and closed; see the examples for why.

Theorems: `C96`.

### C97 On the page, a change within brackets replaces only what is between them (proved)

From the two trees of C96. `SNode.Swapped.spaced`: the second one has spaces next to a script, which is what cannot be shown (C57), exactly when the new content has them. `SNode.Swapped.page`: the elements made for both trees are the same along the way to the brackets, because the place of a tree has no influence on its elements (`render_same`). `parse_named` tells that brackets are round brackets or operators, which are both shown as an `mrow`. From the row of the brackets to the whole formula with C81, and to typing with C77.

Like in C95 and C96, the brackets are not empty and closed.

Theorems: `C97`, `C97_typed`.

### C98 With the keyboard alone exactly the formulas of characters, roots and one-cell tables can be written (proved)

Only if: C84 with texts of one character. If: by induction on the formula, `write_keys` gives keys that write it in front of the row where the caret is, and bring the caret back to the start of that row. A character: type it and press Left. A root or table: type as many `x` as the word (`sqrt`, `vector`) is long and go back to the start; type as many `x` again and the word; press Right, which leaves the word and replaces it (C35); remove the `x` behind the container, press Left to get into its last cell, write the cells from last to first, press Left to get out, and remove the `x` in front. `Leads` is a Hoare triple for key events that holds for all layouts, and the rule that is remembered while typing (C75) is part of its conditions.

For the production build. With overflow checks, Left at the start of a first cell panics (C26), so that roots and tables cannot be left to the left.

Theorems: `C98`, `C98_keys`.

### C99 Which digits and letters are used does not matter for the structure of a formula (proved)

`MRen k x y` says that `y` is the computation `x` with its result changed by `k`, panics included. Each function of the parser and of the renderer takes renamed arguments to renamed results in this sense, by induction on the rounds of its loops and on the depth of recursion; the comparisons with fixed symbols are the same by `Fixes`, the tests for letters and digits by `Renaming`.

For the shipped grammar; C99_sorts gives the replacements that are meant in terms of digits and Latin letters.

Theorems: `C99`, `C99_page`, `C99_sorts`.

### C100 Undo always takes something back (partial)

Each list of edits that a call pushes is empty or changes the formula (`Effective`): a replaced range differs from what it is replaced by, a non-empty range gets shorter, and a dissolved element is not contained in its own cells. Where a rule fires, the replaced nodes contain a piece of its word, and a fresh rule writes none. So the formulas of the ideal history of C22, with which the editor agrees, have no two equal neighbours; undo and redo only move in this list.

The property is false: cutting with nothing selected (C100_cut, C100_cut_event), writing what is selected (C100_same) and leaving a word whose rule writes the same word (C100_echo; limsup, liminf and lim by C100_shipped) are recorded although they change nothing, and take away what could be redone. C100_partial and C100_step_partial prove it for all runs without such calls.

Theorems: `C100_partial`, `C100_step_partial`, `C100_cut`, `C100_same`, `C100_echo`, `C100_cut_event`, `C100_shipped`.

### C101 Pressing Backspace or Delete often enough erases exactly what is on that side in the row (proved)

`Presses cfg dir k row p row' p'` says that `k` presses with the caret in a row of a formula change this row only, wherever it is; such runs are put after each other and into cells. `erased_node`, `erased_row` and `erased_cells` prove by mutual recursion over the nodes that the counted presses erase them: a symbol with one press, a script, fraction or root by entering it, erasing the cells that have to be empty and dissolving it, a table cell by cell. In the editor a Backspace with a pending autocorrection is the same as one without, since the token stays adjacent to the caret or is shortened.

The presses per node are counted by a recursion in Spec/Erase.lean. C101_exact (no fewer presses) is for builds with overflow checks. The editor theorems are for Backspace, since Delete can move the caret out of a word and so correct it.

Theorems: `C101`, `C101_all`, `C101_exact`, `C101_editor`, `C101_editor_all`.

### C102 Backspace and Delete reach the edge of the formula from anywhere (proved)

By induction over the path of the caret: C101 erases what is between the caret and the edge of its row; then one press either dissolves the container, moves into the next cell, which is erased from its other end, or leaves the container (`Clears.edge`, `Clears.table`, `Clears.out`). The symbols on the other side are followed by `keptSymbols`.

What is before and behind a caret is defined in Spec/EraseAll.lean and is everything by C102_split. Backspace is for builds without overflow checks; with them it panics at the first filled cell of a container (C33).

Theorems: `C102_split`, `C102_backspace`, `C102_delete`, `C102_empty`, `C102_editor`.

### C103 The keyboard alone replaces any formula (proved)

Backspace gets to the start of the formula (C102). What is left there is erased in reading order: Right is pressed only at the start of a row, where there is no text to correct, so that it enters a container, goes from an emptied cell to the next one or leaves the last one; then C101 erases the symbol or emptied container left of the caret (`cleared_node`, by mutual recursion). The keys of C98 write the new formula.

For builds without overflow checks; with them Left and Backspace panic at the start of the first cell of a container (C04, C33). The formula has to be well formed, with grids that fit the index type, and without empty symbols.

Theorems: `C103_empty`, `C103`, `C103_grid`.

### C104 A click into the box of a cell puts the caret into this cell (partial)

`RElem.rowPath` lists the rows entered on a path of child indices. Both searches carry exactly this list (`layoutContaining_rowPath`, `layoutLoop_placed`), and the first search goes at least as deep as any path whose boxes contain the pointer (`layoutContaining_extends`). `getElement_rowPath` is the way back, from the rows to the element, used by `C60_row_partial`.

For the formulas of C59_partial; for the excluded ones a click into a cell can give a position that does not exist (C59_not). That no earlier element beside covers the pointer is a condition of the property: an example shows that otherwise the earlier one is taken.

Theorems: `C104_partial`.

### C105 After a click the caret is drawn where the click found it (partial)

The row of the position is found again around the element (`C60_row_partial`). Going down from the row, each container takes the first child with the offset; earlier children end at or before the start of the right one, so only an offset at the very start can go astray (`Laid.caretPosition_at`).

Proved if the place is not the start of an element inside a row, for the formulas of C59_partial. At the start of an element inside a row it is false (C105_not): the row draws the caret at the end of the element before, on the other side of any gap.

Theorems: `C105_partial`, `C105_not`.

### C106 How deep the calls of the parser nest (proved)

The upper bound is the termination measure of C03. A prefix operator is read before its operand, so a call at a minus sign fails if the call behind it has no depth left (`minus_deep`, by induction on the depth); brackets likewise (`open_deep`). A tree made with at most f nested calls has no walk of f steps, because only the cells of a container are made by another call (`walks_pratt`, an instance of the induction over all trees in `Proof/TreeKeep.lean`), while by C47 every path can be walked. For sums the loop of one call goes on after each term, because the right side of `+` binds more strongly than the next `+` (`sum_one`, `sum_loop`).

The depth is the bound of the recursion from which on the row is parsed. The sums of C106_sum consist of the symbols for infinity; whether the stack of the machine is large enough is not modelled.

Theorems: `C106`, `C106_minus`, `C106_open`, `C106_cells`, `C106_reached`, `C106_sum`.

### C107 Spaces between tokens have no meaning (proved)

By C78 a row is read as a formula exactly if it is a way to write it. So three inductions over the rows that are written suffice, without the parser: a space can be put in (`writes_insert`), taken away (`writes_remove`), and a cell replaced by another one for the same formulas (`writes_cell`).

The excluded places are needed, see the examples: a space in a number or in empty brackets gives an error, a space in the sign of an operator another operator.

Theorems: `C107`, `C107_written`.

### C108 Only other programs can put an ill-formed formula into a page (proved)

Invariant of the page: every editor is in a state of C76 (`Proper`), and the clipboard is read as well-formed nodes. `copy` writes a part of a well-formed row (`copy_nodes`). What is written is never read as other nodes (`C37_same`, induction over nodes against the relations of Spec/JsonText), with any depth and any widths.

In a build with overflow checks, as C76. Ill-formed data of other programs are excluded (C39). Documents with an empty table end the editor (C109).

Theorems: `C108`, `C108_paste`, `C37_same`.

### C109 A formula can be shown exactly if its grids are full (proved)

Induction over the fuel of the parser: what it has consumed has full grids (`parse_grids`), and with full grids it does not panic (`Full.parse_ok`, the proof of C42 with `rowGrids` for `rowWf`). The same induction for all rows, where the failed assertion is a second outcome of every call (`Any.parseFuel_ends`), shows that it never runs out of fuel. `toLayout_grids` by recursion over the document: the only ill-formed node that is ever built is a table of width 0. For pasting: an autocorrection never replaces what was just inserted, for ill-formed nodes too (`insertNodes_sound`).

C109_import and C109_paste are about the states of C76; C109_proper extends those states to all documents, in a build with overflow checks.

Theorems: `C109`, `C109_panics`, `C109_tree`, `C109_mathml`, `C109_import`, `C109_paste`, `C109_proper`.

### C110 A formula in brackets can take the place of a variable (proved)

`Spec/Subst.lean` defines substitution in rows (as text) and in formulas. By induction on a way to write the formula, the replaced row is a way to write the replaced formula (`writes_subst`); a replacement never makes `lim` into `limsup` or `liminf` (`prefix_subst`). C69 and C78 carry this over to syntax trees.

Only variables with a name of one letter are replaced.

Theorems: `C110`, `C110_written`, `C110_shown`.

### C111 Formulas without errors have their brackets and quotes closed (proved)

By C78 a row without errors is a way to write a formula. Induction over the ways to write formulas, for any property of rows that is kept by putting rows next to each other and into brackets (`writes_all`), used for `Balanced` (Spec/Brackets) and for `Legible`. The number of brackets open behind a beginning is determined (`balanced_behind`, `balanced_unique`), so one bracket makes a difference. C111_contents with C95.

For symbols that are single characters, as C78.

Theorems: `C111`, `C111_written`, `C111_bracket`, `C111_contents`.

### C112 Precedence decides what a formula means, not whether it can be read (proved)

Spec/Readable has the grammar without levels. By C78 it is enough to give every such row some formula that it writes. What is put behind a formula belongs to all of it or, by induction, to a part at its end (`writes_follow`); an operator opens a place behind which every formula can be read, by induction over the second formula (`Opens.all`). For the converse, a formula is taken apart by induction over the grammar, with C111 for brackets and quotes (`readable_divides`).

For symbols that are single characters, as C78.

Theorems: `C112`, `C112_written`, `C112_join`, `C112_split`, `C112_scripts`, `C112_shown`.

### C113 A formula is read at its loosest operator (proved)

Spec/Loosest says which operators are outside of brackets and quotes, by `Balanced` and `Readable` (C112). Induction over the ways to write formulas: a formula of tighter operators can be written on the right of an operator (`writes_tighter`), one of operators that are not looser on the left (`writes_asTight`). Then C69 and C78.

For symbols that are single characters, as C78. C113_written is for operators with scripts too.

Theorems: `C113`, `C113_written`, `C113_equals`.

### C114 What stands in brackets or in a cell can be replaced by anything with the same meaning (proved)

A bracket with its contents lies in one of the parts of a row, as both are balanced and it begins outside of quotes (`group_append`, `group_brackets`). Induction over the ways to write formulas (`writes_group`), then over the path to the row (`writes_replacedAt`). Then C69 and C78.

For symbols that are single characters, as C78.

Theorems: `C114`, `C114_written`, `C114_cell`, `C114_brackets`, `C114_doubled`.

### C115 Which formulas can be meant, and the shortest way to write each of them (proved)

`Formula.write` (Spec/Notation) writes a formula with brackets only where the levels need them. An operator on the left makes no difference next to a tighter one on the right (`write_left`), and operators on both sides make one pair of brackets necessary at most (`write_between`). So brackets are never put in vain: induction over the ways to write formulas (`write_shortest`). Then C78.

For symbols that are single characters, as C78. The example after the theorems shows why lim without scripts is excepted: a space can be shorter than brackets.

Theorems: `C115`, `C115_meant`, `C115_written`.

### C116 What a sign in front of a formula or behind it applies to (proved)

A formula of tighter operators can be written on the right of an operator (`writes_tighter`, C113), and one without operators on both sides of all operators (`C116_operand`). Then C69 and C78.

For symbols that are single characters, as C78.

Theorems: `C116`, `C116_prefix`, `C116_postfix`, `C116_operand`.


## Axioms per theorem

Output of `#print axioms` for every theorem in MANIFEST.json, grouped.

* propext, Classical.choice, Quot.sound: `C01_insert`, `C01_delete`, `C01_row_edit`, `C02_edits_inverse`, `C03_rows`, `C03_columns`, `C03_tree`, `C03_offsets`, `C04_grid_delete_panics`, `C04_undo_of_grid_insert_panics`, `C04_tree_panics`, `C04_partial`, `C05_eq_iff`, `C05_swap`, `C05_trans`, `C05_le_total_order`, `C06_sorted`, `C06_mem`, `C06_nodup`, `C06_cmp_index`, `C07_right_is_next`, `C07_right_visits_all`, `C07_reaches`, `C08_right_left`, `C08_left_right`, `C09_arrow_keys`, `C09_release`, `C09_word_line`, `C10_script_exit`, `C10_up`, `C10_down`, `C10_enclosing`, `C10_root`, `C10_up_down`, `C100_partial`, `C100_step_partial`, `C100_cut`, `C100_same`, `C100_echo`, `C100_cut_event`, `C101`, `C101_all`, `C101_exact`, `C101_editor`, `C101_editor_all`, `C102_backspace`, `C102_delete`, `C102_empty`, `C102_editor`, `C103_empty`, `C103`, `C103_grid`, `C104_partial`, `C105_partial`, `C105_not`, `C106`, `C106_minus`, `C106_open`, `C106_cells`, `C106_reached`, `C106_sum`, `C107`, `C107_written`, `C108`, `C108_paste`, `C37_same`, `C109`, `C109_panics`, `C109_tree`, `C109_mathml`, `C109_import`, `C109_paste`, `C109_proper`, `C11_span`, `C110`, `C110_written`, `C110_shown`, `C111`, `C111_written`, `C111_bracket`, `C111_contents`, `C112`, `C112_written`, `C112_join`, `C112_split`, `C112_scripts`, `C112_shown`, `C113`, `C113_written`, `C113_equals`, `C114`, `C114_written`, `C114_cell`, `C114_brackets`, `C114_doubled`, `C115`, `C115_meant`, `C115_written`, `C116`, `C116_prefix`, `C116_postfix`, `C116_operand`, `C12_selection`, `C13_false`, `C13_corners_partial`, `C13_view_size_partial`, `C13_empty`, `C13_view_cells`, `C14_walk_down`, `C14_walk_down_invalid`, `C14_navigation`, `C14_position_roundtrip`, `C14_position_roundtrip'`, `C14_range_roundtrip`, `C14_range_roundtrip'`, `C14_grid_roundtrip`, `C14_grid_roundtrip'`, `C15_delete_selection`, `C16_delete_key`, `C16_at_most_one_symbol`, `C17_valid_after_delete`, `C18_insert_nodes`, `C18_type`, `C19_type_backspace`, `C19_one`, `C20_history`, `C20_undo_redo`, `C21_undo_redo`, `C21_redo_undo`, `C21_undo_insert`, `C22_undo_all`, `C23_manager`, `C24_fresh`, `C25_queries`, `C25_moves`, `C25_moves_no_token`, `C26_calm_partial`, `C26_not`, `C27_history_partial`, `C27_exact_partial`, `C27_splice`, `C71_panics`, `C71_panics_other`, `C74`, `C27_not`, `C28_insert`, `C28_delete`, `C29_insert_partial`, `C29_delete_partial`, `C32_open`, `C32_move`, `C32_stays`, `C32_stays_exact`, `C33_reports`, `C33_release_partial`, `C33_root_edge`, `C33_dev_panics`, `C34_accept`, `C35_fires_partial`, `C35_too_early`, `C35_panics`, `C35_not`, `C36_type`, `C36_type_total`, `C36_paste`, `C37_roundtrip_partial`, `C37_too_deep`, `C37_injective`, `C37_same`, `C37_not`, `C38_copy_paste_partial`, `C38_cut_paste_partial`, `C38_cut_loses`, `C39_own_text_partial`, `C39_widths_partial`, `C39_any_shape`, `C39_not`, `C40`, `C40_total`, `C40_wf`, `C41`, `C41_stable`, `C41_bound_needed`, `C42_table`, `C43`, `C43_parse`, `C43_shipped`, `C44`, `C45`, `C46`, `C47`, `C48`, `C48_tree`, `C48_brackets`, `C48_flat`, `C48_left_chain`, `C48_right_chain`, `C48_prefix`, `C49_found`, `C49_atom`, `C50`, `C50_shipped`, `C51_move`, `C51_shift`, `C51_start`, `C51_extend`, `C51_select_all`, `C52`, `C52_shipped`, `C53`, `C53_shipped`, `C54_wf`, `C54_wf_iff`, `C56_set_partial`, `C56_tree`, `C56_nested_panics`, `C56_empty_table_panics`, `C56_caret_lost`, `C57_setup`, `C57_made`, `C57_makes`, `C57_two`, `C57_partial`, `C57_row_partial`, `C57_clean`, `C57_throws`, `C57_not`, `C58_row`, `C58_position`, `C58_draw`, `C58_calm`, `C59_partial`, `C59_row_partial`, `C59_drawn_partial`, `C59_not`, `C60_start`, `C60_nearest_partial`, `C60_exact_partial`, `C60_row_partial`, `C61_redraws`, `C61_partial`, `C61_selects`, `C61_new`, `C61_editor`, `C61_not`, `C62_call_partial`, `C62_arrow_partial`, `C62_key`, `C62_history_partial`, `C62_type_partial`, `C62_delete_partial`, `C62_cut_partial`, `C62_paste_partial`, `C62_click_partial`, `C62_select_partial`, `C62_set_partial`, `C62_new`, `C62_calm`, `C62_not`, `C63_formed`, `C63_run`, `C63_copy`, `C64_queue`, `C64_others`, `C64_timer`, `C64_left`, `C64_typing`, `C64_not`, `C65_drag`, `C65_idle`, `C65_flag`, `C65_double`, `C65_not`, `C66_fine`, `C66_editor`, `C66_keeps`, `C66_recover`, `C66_call_partial`, `C66_undo`, `C66_not`, `C67_signs`, `C67_same`, `C67_tokens`, `C67_marks`, `C67_clean`, `C68_swap`, `C68_caret`, `C68_span`, `C68_extent`, `C68_place`, `C68_first`, `C69`, `C69_few_brackets`, `C69_unambiguous`, `C70_reads`, `C70_unique`, `C70_unambiguous`, `C70_paste_same`, `C70_paste_refused`, `C70_refused_only`, `C70_copied`, `C70_text`, `C70_copied_text`, `C71_unrelated`, `C71_same`, `C71_cases`, `C71_move`, `C71_edit`, `C71_dissolve`, `C71_panics`, `C71_panics_other`, `C72`, `C72_tree`, `C72_brackets`, `C72_shipped`, `C72_side_by_side`, `C72_forgotten`, `C73_panics`, `C73_right`, `C73_show`, `C73_call`, `C73_ends`, `C73_set`, `C73_click`, `C73_lost`, `C74`, `C74_tokens`, `C74_lost`, `C74_stuck`, `C74_select_all`, `C75_list`, `C75_completed`, `C75_typed`, `C75_shipped`, `C75_shipped_kept`, `C75_typed_shipped`, `C75_accept`, `C75_completions`, `C76`, `C76_shown`, `C76_proper`, `C76_stale`, `C77_typed`, `C77_type`, `C77_load`, `C77_session`, `C77_few_brackets`, `C78`, `C78_shown`, `C79`, `C79_depth`, `C79_brackets`, `C79_scripts`, `C79_bound`, `C79_counted`, `C79_free`, `C79_points`, `C80_caret`, `C80_row`, `C80_line`, `C80_grid`, `C80_rectangle`, `C80_table`, `C80_component`, `C80_centred`, `C81_tree`, `C81_shown`, `C81_page`, `C81_part`, `C81_rows`, `C81_typed`, `C82_alone`, `C82_paste`, `C82_clipboard`, `C82_load`, `C82_undo`, `C83_move_partial`, `C83_not`, `C84`, `C84_keeps`, `C84_component`, `C85`, `C85_component`, `C85_select`, `C85_trap`, `C86`, `C86_sharp`, `C86_clean`, `C86_page`, `C87_name`, `C87_number`, `C87_string`, `C87_empty`, `C88`, `C88_order`, `C88_more`, `C88_lim`, `C89_history`, `C89_survives`, `C89_typed`, `C89_back`, `C89_return`, `C90`, `C90_loads`, `C90_error`, `C91_search`, `C91_remove`, `C91_range`, `C91_group`, `C92_skip_partial`, `C92_skip_not`, `C92_memo_partial`, `C93_partial`, `C93_not`, `C94`, `C94_shipped`, `C94_check`, `C95`, `C95_alone`, `C95_names`, `C96`, `C97`, `C97_typed`, `C98`, `C98_keys`, `C99`, `C99_page`, `C99_sorts`

* propext, Quot.sound: `C01_frame`, `C01_invalid_panics`, `C02_inverse_inverse`, `C03_only_tables`, `C03_table_size`, `C100_shipped`, `C12_interval`, `C13_indices`, `C14_child_parent`, `C14_parent_child`, `C23_lifo`, `C29_not`, `C29_root_panics`, `C29_unrelated_partial`, `C30_sound`, `C30_ascii`, `C31_complete`, `C31_empty_panics`, `C32_stuck`, `C41_path`, `C42_addressable`, `C42_get`, `C42_set`, `C49`, `C54_throws`, `C54_errors`, `C54_not`, `C55`, `C55_exists`, `C55_unique`, `C56_caret`, `C75_word`, `C84_nodes`, `C91_take`, `C91_equals`, `C91_default`, `C91_popup`, `C92_memo_not`

* propext: `C02_truth_needed`, `C04_false`, `C102_split`, `C42_roundtrip`, `C42_other_width`, `C50_empty`, `C89_formulas`, `C91_zip`

* no axioms: `C13_view_size_false`


## Where program and properties disagree

Each of these is a theorem about the model (negation with a concrete reachable witness), together
with partial theorems that say what does hold.

1. Grid deletions build a lazy `skip` and drop it, so undoing a grid insertion panics (C04).
2. The rectangle of a grid selection is wrong for anti-diagonal corners, and the size of a grid view
   is wrong unless it spans full rows (C13).
3. `splice_at_range` and an accepted completion put the caret back where it was although the formula
   may have shrunk (C26).
4. Ten independent sequences of public calls panic (C27): among them Left at the start of a first
   cell, Backspace at the start and Delete at the end of the formula (both in the shipped dev
   build, C08 and C33), Word and Line mode, grid selections, empty symbols before the caret.
5. Tracking a range through an edit of an enclosing row adjusts the wrong entry of the path, and
   panics for the root row (C29).
6. Two matches of one rule make the list of completions stuck (C32_stuck).
7. Autocorrection is checked at the wrong offset: it never fires for a token at the start of a row
   and panics for others (C35).
8. The clipboard text of more than 20 nested containers cannot be read back, so cut and paste loses
   it (C37, C38). Paste accepts ill-formed grids (C39).
9. `¬` is registered as a left infix operator, so `¬x` parses with a missing token; `( )` with a
   space inside gives an unknown-token error (seen in Check/RepoTests and the examples of
   Props/Expression).
10. Node name ids wrap after 2^32 names (C41_bound_needed).
11. Reading MathML throws a TypeError for `msub`, `msup` and `msubsup` without children, and makes an
    ill-formed formula of an empty `mtable`, on which the parser then panics (C54_not,
    C56_empty_table_panics).
12. Setting the attribute `mathml` panics while the caret is in a cell, and can leave the caret beyond
    the end of the new formula (C56_nested_panics, C56_caret_lost).
13. A formula in which a space follows a superscript or subscript cannot be shown: the renderer
    expects the script itself as second child of the node, but the parser puts a `Whitespaces` node
    there, and an assertion throws (C57_throws).
14. A click on the script in a cell that is just a base with a script (the exponent of the numerator
    of `x^2/y`) gives a position that does not exist: `newRowsOperatorOverride` in
    `src/mathml/renderer.ts` gives the row index of the whole expression to the element of the
    script as well, and the search adds it twice. `start_selection` does not check, and the next
    `get_caret` panics (C59_not).
15. A drag or a double click ends a pending autocorrection without calling `updateInput`, so that
    the old formula stays on the screen until the next key (C61_not).
16. Typing a space behind a superscript throws out of the timer of `RenderTaskQueue`; the key is not
    lost, but the formula on the screen is the old one (C62_not, from 13).

17. `beforeinput` is handled by a timer and `keydown` at once, so that a key pressed right after a
    character can be applied before it (C64_not).
18. Double and triple clicks only set `selection_mode`, whose value is never used: no word or line is
    selected (C65_double). `pointerup` does not look at `isPointerDown`, so that releasing the pointer
    over the formula extends the selection even if it was pressed elsewhere (C65_not).
19. When rendering throws, `renderResult` is still that of the old formula. A click is then looked up
    in the old formula and can give a position that the current one does not have; the next Backspace
    panics (C66_not).
20. The logical connectives have the binding power of `+`, so they bind more strongly than `=` and
    comparisons: `a=b∧c=d` is read as `(a=(b∧c))=d`. `¬` is an infix operator, `^` a postfix
    operator, and the comma of tuples binds more strongly than `=` (Props/Notation).
21. With a completed word such as `sum` in the numerator of a fraction (or the first cell of a root)
    of the outermost row, Delete at the end of the numerator panics. Without the word it dissolves
    the fraction (`C71_dissolve`). Inside of another element the word is looked for in an unrelated
    place (`LosesToken`).
22. Right behind `sum` in `abcsumx` replaces `sum` by `∑`, but the caret is not moved back by the
    two places that are gone. It is then outside of the formula, drawing it panics, and no call of
    the editor works any more (`C73_lost`; `C73_right` says when). With enough symbols behind the
    token it is two places too far to the right.
23. The shipped rule `lim` is never completed by typing: `liminf` is suggested first. The shipped
    rules `^`, `_` and `/` are never suggested at all, since two characters are needed. With the
    caret put behind an existing `liminf`, `infinity` is suggested first because `inf` is shorter
    (`C75_shipped`, `C75_typed_shipped`).
24. `mousedown` and the pointer handlers make a selection, which can replace a completed token, but
    they only draw the caret: formula and syntax tree stay the old ones. Setting the attribute then
    replaces the range of the old syntax tree, which panics (`C76_stale`).
25. The parser backtracks without bound. Every opening bracket that is not closed triples the number
    of calls of `pratt_parse`: 20 of them take more than three thousand million calls, so typing them
    stops the editor (`C79_brackets`). Formulas without errors can take exponentially many calls too,
    with scripts at infix operators nested in each other (`C79_scripts`). An unknown symbol before
    brackets makes the brackets be read twice (Props/Effort, last example).
26. The box drawn for selected cells of a table goes from the first to the last cell only. Cells are
    centred in their columns (`math-editor-styles.css`), so a wider cell between the two sticks out of
    the box although it is selected (`C80_centred`). The code has a TODO for this
    (`src/mathml/render-result.ts` 82).
27. `connectedCallback` sets the formula of the attribute again, and nothing updates the attribute.
    So the page load sets every formula twice and the first undo does nothing (`C82_undo`), and moving
    the element within the document discards all edits, or panics if the caret is in an element or
    behind the end of the formula of the attribute (`C83_not`).
28. The rules for `^`, `_` and `/` never fire, since `get_autocomplete` asks for at least two matched
    symbols (`math_editor.rs` 345) and they have one character. So fractions, superscripts and
    subscripts cannot be typed (`C84`); they can only be pasted or set by the attribute.
29. No key of the component calls `select_with_caret` or `select_all`, so nothing can be selected
    without the pointer, and Ctrl+C then copies an empty list (`C85_component`). A selection of cells
    of a table is a trap: arrow keys do nothing, and Shift with an arrow key, typing and deleting
    panic (`C85_trap`).
30. The comment "The order of modules is important" (`parse_modules.rs` 50) is not true of the shipped
    modules: only the choice matters (`C88_order`). Adding `Calculus` does change formulas that were
    read without errors: names beginning with `lim` are cut after `lim` (`C88_lim`).
31. The MathML that is shown cannot be loaded back in general: containers are put between two
    `mphantom`, spaces are `mspace` and unknown tokens `merror`, all of which `parsing.ts` reads as a
    symbol `Error`; the quotation marks of a string are doubled because the shown `mtext` contains
    them (`C90`, `C90_error`).
32. `skipWhile` (`array-utils.ts` 52-59) returns the whole array if every element is to be skipped;
    `memoize` returns `undefined` for a first call without arguments and the old result for a call
    with fewer arguments (`C92_skip_not`, `C92_memo_not`). Both are unused.
33. `greedy_choice` (`greedy_choice.rs` 25-52, unused) does not move the input behind the longest
    match, but leaves it where the last parser stopped (`C93_not`).
34. Cutting with nothing selected (`math-editor.ts` 195-204, `primitive_edit.rs` 44-65) pushes an
    edit that removes nothing: the next undo does nothing, and the redo history is lost
    (`C100_cut`, `C100_cut_event`). So does typing or pasting exactly what is selected
    (`C100_same`). The rules for `lim`, `limsup` and `liminf` (`calculus_rules.rs` 79-89) replace a
    word by itself, so that moving the caret away from it is recorded, too (`C100_echo`).
35. After a click on the left part of an element, for example of an operator with space around it, the
    caret is not drawn at the start of this element, the place that the click found, but at the end
    of the element before it (`rendered-container-element.ts` 37-48 takes the first child with that
    offset; `C105_not`).
36. Grids are checked nowhere where they come in: a document with an empty `mtable`, or pasted nodes
    with a grid without width or with an incomplete row, end the editor in every state with a panic
    of the parser, after the formula has been changed (`C109_import`, `C109_paste`). A pasted fraction
    with three cells is parsed (`threeCells`).

## Trusted base

* Lean's kernel. Axioms: at most `propext`, `Classical.choice`, `Quot.sound` (see above). No
  `sorry`, no own axioms, no `native_decide`, no `bv_decide`.
* That the Lean definitions say the same as the cited lines. Evidence: the repository's tests run on
  the model (Check/RepoTests).
* chumsky's combinators (`select`, `just`, `then`, `repeated`, `or_not`, `choice`, `end`, save and
  rewind, emit and check mode) are modelled from their documentation (`Model/Combinators.lean`);
  that this model agrees with the crate is trusted. C94 shows that the parsers built from them are
  the functions of `Model/Parser.lean`.
* serde_json and what serde derives for the clipboard types are modelled from their documentation
  (C70 shows that the model of the reader accepts exactly the texts of RFC 8259 with the right
  members); that the model agrees with the crates is trusted.
* The std collections (`Vec`, `HashMap`, iterators) and the JavaScript built-ins (`Array`, `Map`)
  are taken with their documented meaning.

## Not modelled

* wasm-bindgen and serde-wasm-bindgen glue (`web` crate), memory exhaustion, stack overflow, run
  time, the order of hash map iteration (nothing depends on it).
* The character tables of the crate `unicode_ident` and of `Intl.Segmenter`, Unicode normalisation:
  arbitrary functions in the model.
* JavaScript strings with unpaired surrogates (the glue replaces them by U+FFFD). A string is a list of
  Unicode characters.
* Frontend: CSS, the pixels drawn, how the browser makes a layout (`Geom` is arbitrary) and which
  events it sends.

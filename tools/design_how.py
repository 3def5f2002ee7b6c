how={
"C01":"Model: `InputTree::apply_edit` with the path walk of `row_mut` (Model/Edit). Spec: `rowAt`, `ReplacedAt`. Induction on the path.",
"C02":"Model: `apply_edits`, `inverse`. Spec: `Truthful` edits. Splice inversion, induction over the edit list.",
"C03":"Model: grid branch of `apply_edit` with the iterator as an explicit list state. Spec: cell at column x and row y. Induction over rows.",
"C04":"The lazy `skip` is modelled as the no-op it is. Negation proved, and that every grid deletion panics.",
"C05":"Model: the comparison literally. Proof through a key function into lists with lexicographic order.",
"C06":"Spec: `positions`, the recursive enumeration in reading order. Induction on the tree.",
"C07":"Model: `move_caret`, `move_horizontal`. Next element of the reading order list.",
"C08":"Same; the overflow panic of checked builds is part of the statement.",
"C09":"Case analysis over moves, induction on the ancestor chain.",
"C10":"Spec by table coordinates. Induction on the ancestor chain.",
"C11":"Model: `range_from_positions`. Key order of C05.",
"C12":"Model: `CaretSelection::from_positions`.",
"C13":"Model: `GridRectangle`, `GridView`. Arithmetic on div and mod; negation with witness; exact conditions.",
"C14":"Invariant: a focus is the walk-down of its indices.",
"C15":"Model: `remove_at_caret` and the edit builder. Spec: `ReplacedAt`.",
"C16":"Spec: symbols of the document in reading order.",
"C17":"Follows the classification of C16.",
"C18":"Model: `insert_at_range`, builder, `insert_nodes_at_caret`.",
"C19":"C18 and C16 together, induction on the number of symbols.",
"C20":"Editor state machine over all public calls; forward simulation to a history of whole formulas.",
"C21":"Invariant of reachable editors: both stacks are truthful for the present formula.",
"C22":"Same invariant, induction on the stack.",
"C23":"Refinement of `UndoRedoManager` to a list with a cursor.",
"C24":"Invariant of the cache over all runs.",
"C25":"Case analysis over calls.",
"C26":"Calm runs: those with valid arguments in which replacements and direct splices leave the caret valid (`Landed`). Invariant by induction over runs; negation with witness.",
"C27":"Per-call theorems for reachable states, exact panic condition in calm states, ten witnesses of reachable panics.",
"C28":"Model: `MinimalInputRowRange::apply_edit`. Arithmetic on offsets with content on both sides as spec.",
"C29":"Same; negation with witness, exact condition.",
"C30":"Model: `AutocompleteRule::matches`, `indices_of`. Spec: symbols directly left of an offset.",
"C31":"Same.",
"C32":"Model: `AutocompleteState` and the calls of the editor.",
"C33":"Model of both build profiles.",
"C34":"Editor calls.",
"C35":"Model: `apply_autocorrect`. Exact behaviour per token offset.",
"C36":"Editor calls, with the panic condition.",
"C37":"Model: serde_json's writer and reader for the clipboard type, with the recursion limit of the reader (Model/Json). Round trip by induction.",
"C38":"C37 together with C15 and C18.",
"C39":"Same reader.",
"C40":"Model: `Display` of rows, nodes and grids, with the division by the width. Unique decoding by induction.",
"C41":"Model: `SyntaxNodeNameMap` with hash maps as lists without repeated keys and the cast to u32.",
"C42":"Model: `Index2D`, `GridVec`.",
"C43":"Model: the Pratt parser over a grammar as data. The bound on recursion is shown to be sufficient; results do not change with larger bounds (Proof/ParseMono, ParseTotal).",
"C44":"From the layout invariant `Fills`.",
"C45":"Spec: `Shaped`. Layout invariant `Fills` by induction on the depth of recursion.",
"C46":"Spec: `SNode.text` and `rowText`.",
"C47":"Model: `getNodeWithRowIndices` of `src/core/index.ts`.",
"C48":"Spec: `Reads` (tokens of an expression), `PTree` (nesting), `Nested`. The parse is the unique nested tree over the tokens.",
"C49":"Spec: `Chosen`.",
"C50":"Spec: `CleanRow` (a well-formed expression in every row), `ErrorFree`. Both directions.",
"C51":"Editor calls.",
"C52":"Model: `display_syntax_tree.rs`. Unique decoding by induction.",
"C53":"Model of the rule collections with the registration of names; general invariant over the parser (Proof/TreeNames).",
"C54":"Model: `toMathLayout` of `src/mathml/parsing.ts` over DOM trees. Spec: `Dom.Reads` (which elements are read), `Dom.Complains`, `Dom.BareScript`, `Dom.EmptyTable`. Induction on the size of the document.",
"C55":"Spec: the relation `Means` between documents and formulas. Refinement in both directions.",
"C56":"Model: `attributeChangedCallback` of the component on top of the editor model.",
"C57":"Model: `MathMLRenderer` with the table of renderers of `src/mathml/renderer.ts` and the assertions of the element constructors. `Made` (Proof/Made) lists the shapes of nodes that the parser makes; induction over it (`made_spaced`, `made_row_spaced`, and `made_clean` for trees without errors: every operand takes the spaces after it). Spec: `SpacedScript`, `ScriptThenSpace`, `SpaceThenScript`.",
"C58":"Model: `render-result.ts`, the `getCaretPosition` methods and `renderCarets` over an arbitrary `Geom` (what the browser reports). Invariant `Laid`: children cover the range of their parent without gaps, and cells are laid out like rows of their own.",
"C59":"Invariant `OnRow` through the search with its work list. Spec: `ScriptCell`, `ScriptInCell`.",
"C60":"Invariant of the work list: every element below the start is either seen, waiting, or below one that is too far away.",
"C61":"Model: `src/component/math-editor.ts`, one step per event, on top of the editor, parser, renderer and layout models (Model/Component). Spec: `InSync`, `Event.Redraws`, `Event.Selects`.",
"C62":"Combines C26, C27, C36, C56, C57, C58 and C59 for each event (Proof/Events). Spec: `Component.Calm`, `Kept`, `Unshowable`.",
"C63":"The invariant of C26 without the caret (`Anchored False` in Proof/Calm): all commands of the history have rows that fit.",
"C64":"Model: `Component.handle` (Model/Handler), which tells exceptions from panics; `handle_fine` shows that without exceptions it is `Component.step`. Induction on the queue and on the events. Spec: `InputEvent.calls`, `inputsOf`, `timersLeft`, `Event.Typing`.",
"C65":"From C51 and induction on the moves.",
"C66":"Every outcome of `Component.handle` is a sequence of editor calls (Proof/HandlerLeft), so that invariants of the editor survive. Exact conditions from C57 and C27, undo from C21.",
"C67":"Model: `getElements` of the rendered elements (Model/Render). Induction over `Made` with the formula that a part shows (`Shows`, Proof/Dom), counting by induction over the tree (Proof/DomMarks), unique reading of signs (Proof/DomInjective). Spec: `rowSigns` for formulas, `eltsSigns` for elements, `ChildrenFit`, `tokenTags`.",
"C68":"Model: `getViewportSelection` (Model/Layout). Induction over `Laid`. Spec: `LeftToRight`, `MakesUp`, `IsExtent`, `InRow`, `FirstInRow`, which use positions reported by the browser but none of the functions that compute positions.",
"C69":"Spec: `Formula`, `Formula.Writes`, `Formula.write`, `Conveys` (Spec/Notation), which know the levels but nothing of the parser. Spaces belong to the token before them, or to the first token. For each place in a written row only one rule of each role can start there (`starts`, Proof/NotationRules), so the tokens are known (Proof/NotationTokens); the tree that follows the levels is nested according to the binding powers (Proof/Notation), and by C48 the parser finds exactly that tree. Uniqueness: names have different numbers (Proof/NotationUnique).",
"C70":"Model: serde_json's reader in two steps, text to document and document to nodes (Model/Json). Spec: the grammar of RFC 8259 as relations between documents and texts, and which documents stand for which nodes (Spec/JsonText). Both directions by induction over the fuel of the reader and over the grammar (Proof/JsonText, Proof/JsonValues, Proof/JsonNodes). The text that is written is given exactly by a grammar of its own, `ClipText`: which escapes, which fields and in which order (Proof/JsonClip, by induction over the nodes).",
"C71":"Compares the step with the step in the same state without rules (`Env.plain`). Each call is split into the edits it asks for, the same with and without rules, and what follows (Proof/Pending); the edits are moving, editing in the row of the token, or dissolving the element around it (Proof/PendingSteps). `splice_exact` gives the exact panics of replacing. Spec: `Stays`, `LeavePanics`, `LosesToken` (Spec/Pending).",
"C72":"Spec: `ReadsAny`, which reads a row from left to right by looking only at which roles of rules apply at a position, and `ETree.Nested`, which compares the powers of neighbouring operators (Spec/AnyRow). Every row has a reading (`reads_exists`) and only one (`ReadsAny.unique`); nested trees over a sequence are unique (`enested_unique`); the loop of the Pratt parser builds a nested tree (`loop_any`, `operand_any`, Proof/AnyTree).",
"C73":"`ShowEnds` has one constructor for each way in which showing a formula ends (Props/Ends). From C57 (what can be rendered), C58 (carets that are drawn), C63 (the formula stays well-formed) and the exact panics of C27 and C71. `C73_right` follows the caret through a replacement; `C73_lost` is a run in which the editor ends.",
"C74":"Invariant `Anchored False` (Proof/Calm), which does not need the caret. Spec: `Op.AllPanics` with `TokenLeft`, `ReplacePanics`, `LooksAt` (Spec/Tokens). Matching a rule against any symbols is exact (`matches_exact`), hence the replacement is (`apply_exact`), hence the call (`token_step_panics`, Proof/Tokens).",
"C75":"`suggested` and `chosen` (Spec/Words) are the specification. Both the sorted matches and `suggested` are sorted and agree for every length, hence are equal (`sorted_filter_ext`, `sort_suggested`, Proof/Words). `C75_word` compares endings of the text with endings of the word; `C75_typed` by induction on the typed text; `C75_accept` from `C75_list` and the splice lemmas.",
"C76":"`Event.Kills` and `Event.Throws` (Spec/Endings) say it in terms of the exact panics of calls (C74), of `Unshowable`, and of a selection that does not exist in the drawn formula. Invariant `Component.Formed`; `layoutPosition_total` and `renderCaret_iff` (Proof/AnyEnd) by induction on what is drawn. `C76_stale` is a concrete history.",
"C77":"Spec/EndToEnd: `UpToDate`, `Presents`. One task by C75 and C73 (`handleTask_typed`), then by induction on the queue and on the events (`handleTasks_typed`, `handleAll_typed`); C64 says that the queue is empty in the end. A tree without errors in which a script has spaces comes from a row with a space after a script (`made_clean`, Proof/RenderClean), so other rows can be shown; `write` never makes such a row (`write_calm`). A tree that conveys a formula has no error nodes (`conveys_errorFree`), so nothing is marked (C67).",
"C78":"Spec/Notation: `Writes`, `PlainRow`. From left to right by C50: a clean row is a sequence of tokens (`Reads`); each token is taken apart into the part of the row it covers (`Cut`, `ruleParse_inv`, `atom_token`, `post_writes`, `op_writes`), and the tokens of a nested tree are a formula between operators of all levels that the tree allows (`tree_segment`, by induction on the tree). Brackets by induction on `CleanFrom`, cells by induction on `CleanRow`. From right to left by C69 and `conveys_errorFree`.",
"C79":"Model/Effort counts the calls of `pratt_parse`. That it does so is `C79_counted`: the combinator model of C94 increments a counter in each call, and the refinement proof carries the number along (`Runs`). For any row (`pratt_anyRow`): each rule at a place costs at most 2 K^w, w the weight of what is left, since brackets and cells are smaller and A+1 <= K^a, B+1 <= K^b give A+B+1 <= K^(a+b); the loops are geometric sums. Upper bound: induction on the depth of recursion, with the invariant effort + weight of what is left <= 1 + weight of what was there (`Bounded`); a rule that fails costs nothing unless it is the one for brackets at a bracket, which cannot be in a clean row (`before_noBracket`); an infix operator that is refused is read twice, which costs nothing without scripts (`infix_effort`). Rows with errors and without brackets (`freeBounded`): asking costs nothing and nothing but operators is read twice; the call for a missing operator is paid for by the token before the gap, which the invariant carries along as a credit. Closed brackets behind an unknown character: they are read when `parse_unknown` asks for an operand and again as an argument, T(n+1) = 1 + 2 T(n) (`point_call`). Opening brackets: every rule fails at every position, T(i) = 1 + 2 (T(i+1) + ... + T(n)) (`open_call`). Scripts: the operator is read once behind the sign, refused, and read again (`tower_effort`). Depth: the efforts agree wherever the shallower run has a result (`SameEffort`).",
"C80":"Model/Picture: the styles of the caret line and of the boxes; Spec/Picture: `Pictured`, what is visible wherever the element of the caret is placed. From the parts of a selection (C68) by rational arithmetic (`pictured_row`, `pictured_grid`); the selection of a caret in a table by C12; columns and rows as intervals that follow each other (`intervals_span`).",
"C81":"Spec/Locality: `TreeReplaced`, `ElemReplaced`, `EltReplaced`, along the path of the row. The parser is run on two rows that are equal up to the contents of cells (`SameRow`), in lockstep (`InStep`, `both_*`): the trees are equal up to the trees of cells (`Like`). Hence by induction on the path only the tree of the row differs (`replaced_tree`). Rendering by induction on that (`render_swapped`); a renderer looks at the children of a node only through their own elements.",
"C82":"Model/Page: the list of editors (`none` after a panic) and the clipboard. `C82_alone` by induction on the events, against `Page.eventsOf`, the events of one editor with the pasted data filled in. Undo after loading: the ideal history of C20 after two splices (`load_history`, `load_twice`), then by induction on the number of undos.",
"C83":"From how loading a document ends (`load_ends` of C73); the witness is a typed `a`.",
"C84":"`Writable` is an inductive grammar of formulas. Invariant over all calls: the formula and all formulas along the undo and redo stacks are writable (`AllWritable.step`); a suggestion needs two symbols (C30), so without empty symbols its word has two characters and its result is writable. The converse by induction on the grammar, writing from the right to the left in front of any row (`write_front`), with C75 for the words `sqrt` and `vector`.",
"C85":"Invariant over all calls but three: the caret and all carets along the undo and redo stacks are single positions (`Unselected.step`), lifted to events with exceptions by a general lemma (`handleAll_invariant`). Any range: select all and Left go to the start, Right reaches its start (C07), then by induction every Shift and arrow key moves the end of the shown selection by one node (`key_grow`, `key_shrink`).",
"C86":"The size of a tree is the sum of what its tokens add (`ETree.node_size`, using C72). By induction on how a row is read (`reads_small`) with a different constant for each state of the reader: a missing operand is always followed by an operator, a missing operator by an operand, so each is paid for by the next token. A token is paid for by its symbols, cells and brackets by induction on the weight (`rule_small`, `pratt_small`). Sharp for rows `!∑!∑…`. Without errors: induction on `Made`. DOM: induction on rendered elements (`elements_all`).",
"C87":"If: the token rule is chosen (`one_token`), and C72 gives the tree. Only if: inversion of `Made` gives the token parser (`one_token_inv`), whose result is inverted; that no prefix operator such as `lim` is at the beginning comes from the reading of C72 (`leaf_no_prefix`).",
"C88":"A subset of the modules is `Good`, since all container rules are built in. Order: two rules of different modules with the same role never both begin at the same symbol (`Spread`, a check of the finite table of rules by their first symbol), so the chosen rule and, by induction, the whole parse are the same (`SameIter`, `parse_same`). More: induction over the error-free parse (`row_more`); a rule that is chosen stays chosen (`chosen_more`), only `lim` can take precedence over a name.",
"C89":"The agreement of the editor with the ideal history (C21, `Agree`) is kept by each key, whatever else has happened. `Anchored` (formulas well formed, carets stored in the undo and redo entries valid) is kept too, so showing never panics. Typing: every character pushes exactly one entry with the caret before it (`insert_recorded`, `typed_run`).",
"C90":"By induction on the syntax tree, what is rendered is made of tokens and rows only, or it has an element that cannot be read (`mphantom`, `mspace`, `merror`) at a place where reading gets to (`render_damage`). Such an element leaves a symbol `Error`, which is longer than one character. Tokens are read back character by character, with two more symbols for each `mtext` (`plains_read`); C67 says that the characters are those of the formula.",
"C91":"Loop invariant of the binary search: everything left of `low` is too small, everything right of `high` too big; the interval halves. groupBy by induction from the right.",
"C92":"The two searches for the first failing element are compared with the unique splitting place (`splits_unique`). For memoize the kept arguments and value belong together after the first call that runs the function.",
"C93":"`max_by` returns the last of the greatest elements (`maxBy_best`, induction from the right).",
"C94":"Refinement: each combinator expression yields, in both modes, what the function of `Model/Parser.lean` returns (`Yields`, `Fails`), by one lemma per combinator; then induction on the depth of recursive calls (`pratt_of`). With totality (C43) the two parsers are equal.",
"C95":"Two runs side by side (`pratt_step`): parsing `r` alone and parsing it between the brackets take the same steps, by induction on the depth of recursive calls; the invariant is that the rest of `r` is balanced, so neither run reads the closing bracket before the end. A second induction (`pratt_find`) over the run for the whole row shows that no token reaches over the opening bracket, so it is read by a rule for brackets, and that every node made later keeps the node.",
"C96":"The runs for both rows side by side (`pratt_twins`), by induction on the depth of recursive calls. A place in one row corresponds to the same place in the other one before the brackets, and to the one with the same distance to the end behind them. Nodes read between corresponding places are the same, the same but moved, or they have the brackets in them and are related by `SNode.Swapped`; every way to build nodes keeps this (`Kins.cons`). At the opening bracket both runs read the brackets, by C95. For this the second row may not be shorter, because loops are bounded by the length of the row; the relation is symmetric, so this is enough.",
"C97":"From the two trees of C96. `SNode.Swapped.spaced`: the second one has spaces next to a script, which is what cannot be shown (C57), exactly when the new content has them. `SNode.Swapped.page`: the elements made for both trees are the same along the way to the brackets, because the place of a tree has no influence on its elements (`render_same`). `parse_named` tells that brackets are round brackets or operators, which are both shown as an `mrow`. From the row of the brackets to the whole formula with C81, and to typing with C77.",
"C98":"Only if: C84 with texts of one character. If: by induction on the formula, `write_keys` gives keys that write it in front of the row where the caret is, and bring the caret back to the start of that row. A character: type it and press Left. A root or table: type as many `x` as the word (`sqrt`, `vector`) is long and go back to the start; type as many `x` again and the word; press Right, which leaves the word and replaces it (C35); remove the `x` behind the container, press Left to get into its last cell, write the cells from last to first, press Left to get out, and remove the `x` in front. `Leads` is a Hoare triple for key events that holds for all layouts, and the rule that is remembered while typing (C75) is part of its conditions.",
"C99":"`MRen k x y` says that `y` is the computation `x` with its result changed by `k`, panics included. Each function of the parser and of the renderer takes renamed arguments to renamed results in this sense, by induction on the rounds of its loops and on the depth of recursion; the comparisons with fixed symbols are the same by `Fixes`, the tests for letters and digits by `Renaming`.",
"C100":"Each list of edits that a call pushes is empty or changes the formula (`Effective`): a replaced range differs from what it is replaced by, a non-empty range gets shorter, and a dissolved element is not contained in its own cells. Where a rule fires, the replaced nodes contain a piece of its word, and a fresh rule writes none. So the formulas of the ideal history of C22, with which the editor agrees, have no two equal neighbours; undo and redo only move in this list.",
"C101":"`Presses cfg dir k row p row' p'` says that `k` presses with the caret in a row of a formula change this row only, wherever it is; such runs are put after each other and into cells. `erased_node`, `erased_row` and `erased_cells` prove by mutual recursion over the nodes that the counted presses erase them: a symbol with one press, a script, fraction or root by entering it, erasing the cells that have to be empty and dissolving it, a table cell by cell. In the editor a Backspace with a pending autocorrection is the same as one without, since the token stays adjacent to the caret or is shortened.",
"C102":"By induction over the path of the caret: C101 erases what is between the caret and the edge of its row; then one press either dissolves the container, moves into the next cell, which is erased from its other end, or leaves the container (`Clears.edge`, `Clears.table`, `Clears.out`). The symbols on the other side are followed by `keptSymbols`.",
"C103":"Backspace gets to the start of the formula (C102). What is left there is erased in reading order: Right is pressed only at the start of a row, where there is no text to correct, so that it enters a container, goes from an emptied cell to the next one or leaves the last one; then C101 erases the symbol or emptied container left of the caret (`cleared_node`, by mutual recursion). The keys of C98 write the new formula.",
"C104":"`RElem.rowPath` lists the rows entered on a path of child indices. Both searches carry exactly this list (`layoutContaining_rowPath`, `layoutLoop_placed`), and the first search goes at least as deep as any path whose boxes contain the pointer (`layoutContaining_extends`). `getElement_rowPath` is the way back, from the rows to the element, used by `C60_row_partial`.",
"C105":"The row of the position is found again around the element (`C60_row_partial`). Going down from the row, each container takes the first child with the offset; earlier children end at or before the start of the right one, so only an offset at the very start can go astray (`Laid.caretPosition_at`).",
"C106":"The upper bound is the termination measure of C03. A prefix operator is read before its operand, so a call at a minus sign fails if the call behind it has no depth left (`minus_deep`, by induction on the depth); brackets likewise (`open_deep`). A tree made with at most f nested calls has no walk of f steps, because only the cells of a container are made by another call (`walks_pratt`, an instance of the induction over all trees in `Proof/TreeKeep.lean`), while by C47 every path can be walked. For sums the loop of one call goes on after each term, because the right side of `+` binds more strongly than the next `+` (`sum_one`, `sum_loop`).",
"C107":"By C78 a row is read as a formula exactly if it is a way to write it. So three inductions over the rows that are written suffice, without the parser: a space can be put in (`writes_insert`), taken away (`writes_remove`), and a cell replaced by another one for the same formulas (`writes_cell`).",
"C108":"Invariant of the page: every editor is in a state of C76 (`Proper`), and the clipboard is read as well-formed nodes. `copy` writes a part of a well-formed row (`copy_nodes`). What is written is never read as other nodes (`C37_same`, induction over nodes against the relations of Spec/JsonText), with any depth and any widths.",
"C109":"Induction over the fuel of the parser: what it has consumed has full grids (`parse_grids`), and with full grids it does not panic (`Full.parse_ok`, the proof of C42 with `rowGrids` for `rowWf`). The same induction for all rows, where the failed assertion is a second outcome of every call (`Any.parseFuel_ends`), shows that it never runs out of fuel. `toLayout_grids` by recursion over the document: the only ill-formed node that is ever built is a table of width 0. For pasting: an autocorrection never replaces what was just inserted, for ill-formed nodes too (`insertNodes_sound`).",
"C110":"`Spec/Subst.lean` defines substitution in rows (as text) and in formulas. By induction on a way to write the formula, the replaced row is a way to write the replaced formula (`writes_subst`); a replacement never makes `lim` into `limsup` or `liminf` (`prefix_subst`). C69 and C78 carry this over to syntax trees.",
"C111":"By C78 a row without errors is a way to write a formula. Induction over the ways to write formulas, for any property of rows that is kept by putting rows next to each other and into brackets (`writes_all`), used for `Balanced` (Spec/Brackets) and for `Legible`. The number of brackets open behind a beginning is determined (`balanced_behind`, `balanced_unique`), so one bracket makes a difference. C111_contents with C95.",
"C112":"Spec/Readable has the grammar without levels. By C78 it is enough to give every such row some formula that it writes. What is put behind a formula belongs to all of it or, by induction, to a part at its end (`writes_follow`); an operator opens a place behind which every formula can be read, by induction over the second formula (`Opens.all`). For the converse, a formula is taken apart by induction over the grammar, with C111 for brackets and quotes (`readable_divides`).",
"C113":"Spec/Loosest says which operators are outside of brackets and quotes, by `Balanced` and `Readable` (C112). Induction over the ways to write formulas: a formula of tighter operators can be written on the right of an operator (`writes_tighter`), one of operators that are not looser on the left (`writes_asTight`). Then C69 and C78.",
"C114":"A bracket with its contents lies in one of the parts of a row, as both are balanced and it begins outside of quotes (`group_append`, `group_brackets`). Induction over the ways to write formulas (`writes_group`), then over the path to the row (`writes_replacedAt`). Then C69 and C78.",
"C115":"`Formula.write` (Spec/Notation) writes a formula with brackets only where the levels need them. An operator on the left makes no difference next to a tighter one on the right (`write_left`), and operators on both sides make one pair of brackets necessary at most (`write_between`). So brackets are never put in vain: induction over the ways to write formulas (`write_shortest`). Then C78.",
"C116":"A formula of tighter operators can be written on the right of an operator (`writes_tighter`, C113), and one without operators on both sides of all operators (`C116_operand`). Then C69 and C78.",
}

{"id": "C01", "title": "A row edit changes only the addressed row", "statement": "InputTree::apply_edit with a row insertion at a position that exists in the tree never panics, and afterwards the addressed row is exactly (old content left of the offset) ++ values ++ (old content right of the offset); with a row deletion whose range lies inside the row it is (left part) ++ (content right of the range). Every row of the tree that is not the addressed row and does not enclose it is unchanged, and every enclosing container keeps its variant, its width and its number of cells.", "quantifier": "every tree, every row path and offset valid in it, every list of inserted nodes, every deletion length that fits", "why_tests_cant": "The trees, nesting depths, offsets and contents are unbounded; a test fixes one tree and one offset and cannot rule out that a sibling row at some depth is touched.", "anchors": ["aftermath-core/input_tree/src/input_tree.rs InputTree::apply_edit", "aftermath-core/input_tree/src/node.rs InputNode::row_mut", "aftermath-core/input_tree/src/editing/basic_edit.rs RowEdit"]}
{"id": "C02", "title": "Recorded row edits are invertible", "statement": "If a list of row edits applies to a tree without panicking and every deletion in it records exactly the nodes it deletes (which is how remove_range, replace_range and flatten build deletions), then applying the reversed list of inverted edits to the result does not panic and gives back the original tree, node for node.", "quantifier": "every tree, every list of edits of any length that is applicable and truthful at the point where each edit applies", "why_tests_cant": "It is an algebraic law over all edit lists and all trees; sampled edits do not show that the composition of arbitrary many edits inverts.", "anchors": ["aftermath-core/input_tree/src/input_tree.rs InputTree::apply_edit", "aftermath-core/input_tree/src/editing/basic_edit.rs Invertible for RowEdit/BasicEdit", "aftermath-core/input_tree/src/editing/editable.rs apply_edits", "aftermath-core/caret/src/primitive/caret_edit.rs CaretEdit::inverse"]}
{"id": "C03", "title": "Inserting rows or columns into a table moves every old cell to the right place", "statement": "Applying a grid insertion (rows at index k, or columns at index k) to a well-formed table, with a value grid of matching size, does not panic; the new table has the old width/height plus that of the inserted grid in the chosen direction; a cell at (x,y) before the insertion point is the old (x,y) cell, a cell inside the inserted band is the corresponding inserted cell, and a cell beyond it is the old cell shifted by the size of the inserted grid. Nothing else in the tree changes.", "quantifier": "every tree, table position, table size, insertion index k up to the table size, and inserted grid of matching height/width", "why_tests_cant": "Grid sizes and insertion indices are unbounded and the row-major iterator arithmetic only goes wrong for particular combinations.", "anchors": ["aftermath-core/input_tree/src/input_tree.rs InputTree::apply_edit lines 86-142", "aftermath-core/input_tree/src/editing/basic_edit.rs GridEdit::new_grid_size", "aftermath-core/input_tree/src/grid.rs GridVec"]}
{"id": "C04", "title": "A grid edit can be undone by its inverse", "statement": "Applying a grid insertion to a table and then applying its inverse gives back the original tree; in particular the inverse does not panic. (Expected to be false of this commit: the deletion branches build a lazy skip and drop it, so nothing is skipped.)", "quantifier": "every tree, table, direction, insertion index and inserted grid of matching non-empty size", "why_tests_cant": "A claim about all table sizes and both directions; a refutation for all inputs (the deletion always panics) cannot be obtained from finitely many runs.", "anchors": ["aftermath-core/input_tree/src/input_tree.rs InputTree::apply_edit lines 123-141", "aftermath-core/input_tree/src/editing/basic_edit.rs Invertible for GridEdit"]}
{"id": "C05", "title": "Positions are totally ordered, and Equal means the same position", "statement": "The comparison of caret positions is a total order on all positions: reflexive, antisymmetric (Equal exactly when row indices and offset are both equal), transitive, and flipping the arguments flips the result. Hence comparing, min/max, and range containment of positions are well defined.", "quantifier": "every pair and triple of positions, i.e. arbitrary row index paths of any depth and any offsets", "why_tests_cant": "Transitivity and antisymmetry are statements about all triples of unbounded paths, with the interleaved index*2+1 / offset*2 keys.", "anchors": ["aftermath-core/input_tree/src/row.rs RowIndices::cmp_indices_and_offset", "aftermath-core/input_tree/src/focus/row_position.rs Ord for InputRowPosition"]}
{"id": "C06", "title": "Position order is document order", "statement": "In every well-formed tree, listing all caret positions in reading order (a row: offset 0, then for each element the positions inside its cells in cell order, then the next offset) gives a list that is strictly increasing for the position comparison and contains every valid position exactly once.", "quantifier": "every well-formed input tree", "why_tests_cant": "Reading order is a recursive enumeration over an unbounded tree; tests compare a handful of position pairs.", "anchors": ["aftermath-core/input_tree/src/row.rs RowIndices::cmp_indices_and_offset", "aftermath-core/input_tree/src/focus/row_position.rs"]}
{"id": "C07", "title": "Pressing Right visits every caret position exactly once", "statement": "In every well-formed tree, starting at offset 0 of the root row and pressing Right repeatedly moves the caret through all caret positions of the tree in reading order, each exactly once, never panics, and stops (the caret no longer moves) exactly at the end of the root row.", "quantifier": "every well-formed input tree and every number of key presses", "why_tests_cant": "Reachability of all positions is a statement about an unbounded number of steps on unbounded trees.", "anchors": ["aftermath-core/caret/src/primitive/movement.rs move_horizontal_into, move_horizontal_beyond_edge, move_caret_internal", "aftermath-core/caret/src/math_editor.rs MathEditor::move_caret"]}
{"id": "C08", "title": "Left undoes Right and Right undoes Left", "statement": "For every caret position except the last one, Right followed by Left returns to the position, and for every position except the first, Left followed by Right returns to it. (With overflow checks on, which is how the npm scripts build the wasm, Left at the start of the first cell of any container panics instead: `v - 1` on usize.)", "quantifier": "every well-formed tree, every valid position, both build profiles", "why_tests_cant": "The two directions are implemented by different branches; agreement for all shapes of nesting is not a finite check. The profile dependent panic occurs only at particular positions.", "anchors": ["aftermath-core/caret/src/primitive/movement.rs move_horizontal_beyond_edge lines 187-193", "aftermath-core/caret/src/primitive/movement.rs move_horizontal_into", "aftermath-core/package.json build --dev"]}
{"id": "C09", "title": "Arrow keys keep the caret on a valid position", "statement": "From every caret (any two valid endpoints), each of the four arrow moves in Char mode either leaves the caret alone or puts it, collapsed, on a position that exists in the tree, and does not panic in a build without overflow checks; with overflow checks the only panic is Left (or Backspace-as-move) at the start of a first cell. Word and Line mode panic (todo!) whenever the selection is a row selection.", "quantifier": "every well-formed tree, every caret, every direction and mode, both build profiles", "why_tests_cant": "Safety for all trees, carets and directions.", "anchors": ["aftermath-core/caret/src/primitive/movement.rs NavigationSettings::move_caret, move_caret_range, move_vertical", "aftermath-core/caret/src/caret.rs Caret::set_selection"]}
{"id": "C10", "title": "Up and Down change the table row and keep the column", "statement": "Up/Down from inside a cell that has a cell directly above/below in the same container goes to exactly that cell (same column, row -1/+1), at its end for Up and its start for Down; Down in a subscript and Up in a superscript leave it to the position just before the script; otherwise the move is that of the enclosing row, and at the outermost level the caret does not move. When both moves stay in the container, Up then Down comes back to the same cell.", "quantifier": "every well-formed tree, every valid position, both vertical directions", "why_tests_cant": "The recursion walks an unbounded chain of ancestors; cell arithmetic is per grid width.", "anchors": ["aftermath-core/caret/src/primitive/movement.rs move_vertical", "aftermath-core/input_tree/src/grid/index2d.rs add_checked, sub_checked"]}
{"id": "C11", "title": "The range spanned by two positions covers both and is as deep and small as possible", "statement": "For any two valid positions, range_from_positions does not panic; the range lies in the deepest row that encloses both; both positions are inside the range; the range runs forwards exactly when the first position is not after the second; and no strictly smaller range of that row covers both positions.", "quantifier": "every well-formed tree and every pair of valid positions, in either order", "why_tests_cant": "Needs all pairs of nested positions, including one endpoint inside an element and the other next to it.", "anchors": ["aftermath-core/input_tree/src/input_tree.rs InputTree::range_from_positions", "aftermath-core/input_tree/src/focus/row_range.rs InputRowRange::contains", "aftermath-core/input_tree/src/row.rs RowIndices::get_shared"]}
{"id": "C12", "title": "A caret over any two valid positions has a well-defined selection", "statement": "Building the selection of a caret from two valid positions never panics (all asserts and unwraps hold). It is a grid selection exactly when the two endpoints lie in two different cells of one and the same table, and then the selected index interval contains both cells; in all other cases it is the row range of C11.", "quantifier": "every well-formed tree and every pair of valid positions", "why_tests_cant": "The assertions in from_positions relate three independently computed indices; tests exercise only a few pairs.", "anchors": ["aftermath-core/caret/src/caret.rs CaretSelection::from_positions, Caret::from_minimal", "aftermath-core/input_tree/src/grid/grid_view.rs GridRectangle::from_indices_inclusive"]}
{"id": "C13", "title": "A grid selection is the bounding rectangle of its two corner cells", "statement": "The grid selection made from two cells has as top-left index the componentwise minimum and as bottom-right index the componentwise maximum of the two cells, and the view of the selection has exactly that many rows and columns. (Expected to be false of this commit when one corner is right of but above the other, and the view size is wrong for rectangles that do not span full rows.)", "quantifier": "every grid size and every pair of cells", "why_tests_cant": "The statement distinguishes diagonal and anti-diagonal corner pairs in grids of any width.", "anchors": ["aftermath-core/input_tree/src/grid/grid_view.rs GridRectangle, GridView", "aftermath-core/input_tree/src/focus/grid_range.rs top_left_index, bottom_right_index"]}
{"id": "C14", "title": "Focus navigation is consistent", "statement": "Walking down from the root along a path that exists never panics and gives a focus that reports that path and shows the row the tree has at that path; walking down along a path that does not exist panics. Going to a child and back to the parent returns the same focus (row, indices, whole parent chain), even though row indices are handed down and back. Converting a position or range to its minimal form and back is the identity.", "quantifier": "every tree, every path, every chain of child/parent steps", "why_tests_cant": "The index vector is moved between focus levels; correctness is an invariant over arbitrary navigation sequences.", "anchors": ["aftermath-core/input_tree/src/focus.rs InputFocusRow, InputFocusNode", "aftermath-core/input_tree/src/focus/row_position.rs to_minimal/from_minimal", "aftermath-core/input_tree/src/focus/row_range.rs to_minimal/from_minimal"]}
{"id": "C15", "title": "Deleting a selection removes exactly the selected nodes", "statement": "With a non-collapsed row selection, remove_at_caret in any mode (Left, Right, Range) removes exactly the nodes between the two endpoints from that row and nothing else, and puts the caret, collapsed and valid, at the left end of the former selection.", "quantifier": "every well-formed tree, every row selection, every removal mode", "why_tests_cant": "All selections in all trees, forwards and backwards.", "anchors": ["aftermath-core/caret/src/primitive/primitive_edit.rs remove_at_caret", "aftermath-core/input_tree/src/editing/basic_edit.rs BasicEdit::remove_range", "aftermath-core/caret/src/math_editor.rs MathEditor::remove_at_caret"]}
{"id": "C16", "title": "Backspace and Delete never lose more than one symbol", "statement": "With a collapsed caret, Backspace and Delete either leave the tree alone and only move the caret, or remove exactly one symbol and nothing else, or dissolve one container into its row (the symbols of the whole document, read in order, are unchanged). So the sequence of symbols of the document afterwards is the old one with at most one symbol removed.", "quantifier": "every well-formed tree, every valid caret position, both directions", "why_tests_cant": "Content preservation over all trees and all of the branch's special cases (sub/sup, fraction, root, empty grid).", "anchors": ["aftermath-core/caret/src/primitive/primitive_edit.rs remove_at_caret_position, flatten_node"]}
{"id": "C17", "title": "After a deletion the caret is on a valid position", "statement": "Whatever remove_at_caret does for a row selection (delete, dissolve, move), the edits it returns apply to the tree without panic and the position it returns exists in the resulting tree.", "quantifier": "every well-formed tree, every row range, every removal mode, both build profiles (with the overflow panics of C08/C33 excluded)", "why_tests_cant": "The new position is computed from the old tree while the edits are applied later; agreement for all trees is not a finite check.", "anchors": ["aftermath-core/caret/src/primitive/primitive_edit.rs", "aftermath-core/caret/src/editor_action_builder.rs EditorActionBuilder::finish"]}
{"id": "C18", "title": "Typing replaces the selection and puts the caret behind the inserted symbols", "statement": "insert_at_caret with a row selection replaces exactly the selected nodes by the given symbols, leaves all other rows alone, and leaves the caret collapsed directly behind the last inserted symbol, on a valid position.", "quantifier": "every well-formed tree, every row selection, every list of symbols", "why_tests_cant": "All trees, selections and symbol lists.", "anchors": ["aftermath-core/caret/src/primitive/primitive_edit.rs insert_at_range", "aftermath-core/input_tree/src/editing/basic_edit.rs BasicEdit::replace_range", "aftermath-core/caret/src/math_editor.rs MathEditor::insert_at_caret"]}
{"id": "C19", "title": "Typing a symbol and pressing Backspace restores the formula", "statement": "With a collapsed caret, inserting one symbol and then pressing Backspace gives back exactly the old tree and the old caret; likewise inserting n symbols and pressing Backspace n times.", "quantifier": "every well-formed tree, every valid caret position, every symbol list", "why_tests_cant": "Composition of two different code paths for all trees and lengths.", "anchors": ["aftermath-core/caret/src/primitive/primitive_edit.rs insert_at_range, remove_at_caret_position", "aftermath-core/input_tree/src/input_tree.rs InputTree::apply_edit"]}
{"id": "C20", "title": "Undo/redo behaves like a history of snapshots", "statement": "After any sequence of editor calls that did not panic, the formula is the one an ideal history would show: a history that stores whole-tree snapshots, pushes a snapshot at every edit (dropping the redo side), steps back on undo and forward on redo.", "quantifier": "every finite sequence of public editor calls (typing, deleting, moving, selecting, pasting, splicing, autocomplete, undo, redo) with arbitrary arguments, from a fresh editor", "why_tests_cant": "It is a refinement over all histories; a test checks single short scripts.", "anchors": ["aftermath-core/caret/src/math_editor.rs MathEditor::undo, redo, apply_action", "aftermath-core/caret/src/undo_redo_manager.rs", "aftermath-core/caret/src/editor_action_builder.rs finish", "aftermath-core/caret/src/primitive/caret_edit.rs"]}
{"id": "C21", "title": "Undo followed by redo is the identity", "statement": "Whenever undo reports success in a reachable editor, a following redo reports success and restores the formula exactly, and the caret to the caret recorded after that edit; whenever redo succeeds a following undo restores formula and the caret recorded before the edit. Neither panics.", "quantifier": "every reachable editor state", "why_tests_cant": "All reachable states.", "anchors": ["aftermath-core/caret/src/math_editor.rs undo, redo, apply_action", "aftermath-core/caret/src/undo_redo_manager.rs"]}
{"id": "C22", "title": "Undoing everything returns to the empty formula", "statement": "In every reachable editor state, calling undo until it reports failure never panics, ends with the empty formula after exactly as many steps as there were undoable edits, and calling redo the same number of times afterwards restores the formula.", "quantifier": "every reachable editor state", "why_tests_cant": "Unbounded number of edits and undo steps.", "anchors": ["aftermath-core/caret/src/math_editor.rs undo, redo", "aftermath-core/caret/src/undo_redo_manager.rs"]}
{"id": "C23", "title": "An edit clears the redo history; undo and redo move one step", "statement": "push empties the redo side and makes undo possible; undo succeeds exactly when there is something to undo and then makes redo possible; k pushes followed by j<=k undos leave exactly k-j undoable and j redoable actions, and the actions handed out are the pushed ones (inverted for undo) in last-in first-out order.", "quantifier": "every sequence of push/undo/redo on the manager, for every action type", "why_tests_cant": "All operation sequences and all action types.", "anchors": ["aftermath-core/caret/src/undo_redo_manager.rs UndoRedoManager"]}
{"id": "C24", "title": "The syntax tree shown always belongs to the current formula", "statement": "In every reachable editor state, get_syntax_tree returns the parse of the current formula: the cached tree is never stale.", "quantifier": "every finite sequence of public editor calls that did not panic, every parser function", "why_tests_cant": "Cache coherence over all histories.", "anchors": ["aftermath-core/caret/src/math_editor.rs MathEditor::get_syntax_tree, apply_action", "aftermath-core/caret/src/editor_action_builder.rs finish"]}
{"id": "C25", "title": "Moving, selecting and querying do not edit the formula", "statement": "move_caret, select_with_caret, start_selection, extend_selection, finish_selection, select_all, get_caret, get_autocomplete, open_autocomplete, move_in_autocomplete, get_syntax_tree and copy leave the formula and both undo stacks unchanged, with the only exception of an autocorrect replacement (of a complete match of the selected rule) by the first four.", "quantifier": "every editor state, every argument", "why_tests_cant": "Frame property over all states and arguments.", "anchors": ["aftermath-core/caret/src/math_editor.rs MathEditor"]}
{"id": "C26", "title": "The caret always points into the formula", "statement": "In every reachable editor state both caret endpoints are valid positions of the current formula (given that positions passed to start_selection/extend_selection are valid). (Expected to be false of this commit: splice_at_range puts the old caret back after the formula may have shrunk.)", "quantifier": "every finite sequence of public editor calls", "why_tests_cant": "An invariant over all histories; the violation needs an accepted autocompletion that shortens the row.", "anchors": ["aftermath-core/caret/src/math_editor.rs splice_at_range line 385, finish_autocomplete, undo, redo"]}
{"id": "C27", "title": "No editor call panics", "statement": "From every reachable editor state no public editor call panics when given valid positions. (Expected to be false of this commit in several independent ways, each to be exhibited: overflow in Backspace at the start of the formula, tracking a nested caret through a root edit, the stale caret after splice, autocorrect slicing with the wrong caret position, empty symbols in autocomplete, grid selections and Word/Line mode hitting todo!, ill-formed pasted grids.) The calls undo, redo, select_all, finish_selection never panic in any reachable state.", "quantifier": "every finite sequence of public editor calls with valid arguments, both build profiles", "why_tests_cant": "Absence of panics is a statement about all states; single crashes can be found by tests but not their exact extent.", "anchors": ["aftermath-core/caret/src/math_editor.rs MathEditor", "aftermath-core/caret/src/primitive/movement.rs", "aftermath-core/caret/src/primitive/primitive_edit.rs", "aftermath-core/input_tree/src/focus/row_range.rs"]}
{"id": "C28", "title": "A range tracked through edits in its own row keeps marking the same content", "statement": "Updating a range through an insertion in the same row: content strictly inside stays inside, content outside stays outside, text inserted at the right edge or strictly inside becomes part of the range and text inserted at the left edge of a non-collapsed range too, the range stays valid and keeps its direction. Through a deletion in the same row: the marked content afterwards is exactly the old marked content minus the deleted part, and the range stays valid and keeps its direction.", "quantifier": "every row, every valid range (forwards or backwards), every insertion or deletion in that row", "why_tests_cant": "All offsets and lengths, with the saturating arithmetic.", "anchors": ["aftermath-core/input_tree/src/focus/row_range.rs Editable for MinimalInputRowRange lines 159-178", "aftermath-core/input_tree/src/editing/row_indices_edit.rs"]}
{"id": "C29", "title": "A range inside an element is tracked through edits of an enclosing row", "statement": "Updating a range or position through a row edit of an enclosing row: if the enclosing element was deleted it collapses to the start of the deletion, otherwise it still denotes the same row content in the edited tree. Updates never panic and edits of unrelated rows do not move it. (Expected to be false of this commit for enclosing rows: the wrong path entry is adjusted, and for the root row it panics.)", "quantifier": "every tree, every nested position, every row edit", "why_tests_cant": "All nesting depths; the off-by-one only shows for edits of an enclosing row.", "anchors": ["aftermath-core/input_tree/src/focus/row_range.rs lines 143-145 and 179-199", "aftermath-core/input_tree/src/focus/row_position.rs Editable"]}
{"id": "C30", "title": "Autocomplete suggestions are sound", "statement": "Every match reported for a rule ends at the caret and says how many symbols of the row it covers: those symbols, concatenated, are a prefix of the rule text, and at least the requested minimum number of symbols is covered. If every covered symbol is a single ASCII character the reported matched rule length is exactly the length of that prefix, and the match is reported as complete exactly when the symbols spell the whole rule text.", "quantifier": "every row, caret offset, rule text and minimum length", "why_tests_cant": "All rows and rule texts; the matching loop works on byte indices from the right.", "anchors": ["aftermath-core/parser/src/autocomplete.rs AutocompleteRule::matches, is_complete_match"]}
{"id": "C31", "title": "Autocomplete suggestions are complete", "statement": "For rows of non-empty symbols before the caret and ASCII rules: whenever the last k symbols before the caret concatenate to a prefix of the rule text and k is at least the minimum, a match with input length at least k and that end point is reported; if the rule text is not completable that way nothing is reported. Matching does not panic for such rows. (It does panic for an empty symbol before the caret.)", "quantifier": "every row of non-empty symbols, caret offset inside the row, ASCII rule text and minimum length", "why_tests_cant": "Completeness quantifies over all rows.", "anchors": ["aftermath-core/parser/src/autocomplete.rs indices_of, AutocompleteRule::matches", "aftermath-core/parser/src/parser.rs AutocompleteMatcher for MathParser"]}
{"id": "C32", "title": "The autocomplete selection is always a listed match", "statement": "In every reachable editor state an open autocomplete list is non-empty, sorted by matched length, contains exactly the matches for the current caret, and its selected index is inside the list; moving up/down changes it by at most one and never leaves the list; the rule last selected stays selected when the list is asked for again and still contains it.", "quantifier": "every reachable editor state, every sequence of move_in_autocomplete/get_autocomplete calls", "why_tests_cant": "All histories of the remembered rule.", "anchors": ["aftermath-core/caret/src/math_editor.rs AutocompleteState::get_autocomplete, move_in_autocomplete", "aftermath-core/caret/src/autocomplete.rs AutocompleteResults"]}
{"id": "C33", "title": "Backspace at the start of the formula does nothing", "statement": "Pressing Backspace with the caret at offset 0 of the root row, or Delete at its end, leaves formula, caret and history unchanged. (Expected to be false with overflow checks on, i.e. for the shipped dev build: index_in_parent computes len() - 1 on an empty index list.)", "quantifier": "every formula, both build profiles", "why_tests_cant": "Depends on the build profile and holds for all formulas.", "anchors": ["aftermath-core/caret/src/primitive/primitive_edit.rs line 137", "aftermath-core/input_tree/src/focus.rs InputFocusRow::index_in_parent lines 101-105", "aftermath-core/package.json"]}
{"id": "C34", "title": "Accepting an autocompletion replaces exactly the matched symbols", "statement": "When an autocompletion is accepted, the formula afterwards is the old one with exactly the symbols covered by the selected match (the ones directly left of the caret) replaced by the rule's result; nothing else changes and one undo step is added.", "quantifier": "every reachable editor state with an autocompletion and a valid caret", "why_tests_cant": "All states and rules.", "anchors": ["aftermath-core/caret/src/math_editor.rs finish_autocomplete, splice_at_range", "aftermath-core/caret/src/autocomplete.rs get_caret_range"]}
{"id": "C35", "title": "Autocorrect fires when the caret leaves a completed token", "statement": "If the selected autocompletion is a complete match and the caret is then moved out of the matched token without editing, the token is replaced by the rule's result. (Expected to be false of this commit: the re-check passes the offset of the token in its row as caret position inside the token's slice, so it never fires for a token at the start of a row and panics for tokens further right than they are long.)", "quantifier": "every formula, token offset and ASCII rule", "why_tests_cant": "The behaviour depends on the relation between the token's offset and its length.", "anchors": ["aftermath-core/caret/src/math_editor.rs apply_autocorrect lines 308-316", "aftermath-core/caret/src/autocomplete.rs AutocorrectActionBuilder"]}
{"id": "C36", "title": "Typing never triggers autocorrect", "statement": "insert_at_caret and paste on a collapsed caret never cause an autocorrect replacement: the formula afterwards is exactly the insertion result, one undo step is added.", "quantifier": "every editor state with a valid collapsed caret, every list of symbols or nodes", "why_tests_cant": "Depends on how the tracked range grows with the insertion, for all offsets.", "anchors": ["aftermath-core/caret/src/math_editor.rs insert_at_caret, apply_autocorrect", "aftermath-core/caret/src/autocomplete.rs AutocorrectActionBuilder::finish", "aftermath-core/input_tree/src/focus/row_range.rs"]}
{"id": "C37", "title": "Copied nodes survive the clipboard format", "statement": "Deserializing the text produced by serializing any list of nodes gives back exactly that list; distinct lists serialize to distinct texts.", "quantifier": "every list of nodes, including arbitrary Unicode symbols with quotes, backslashes and control characters, any nesting, any grid width", "why_tests_cant": "Round trip over all trees and strings.", "anchors": ["aftermath-core/serialization/src/lib.rs serialize_input_nodes, deserialize_input_nodes", "aftermath-core/input_tree/src/node.rs", "aftermath-core/input_tree/src/grid.rs", "aftermath-core/input_tree/src/row.rs"]}
{"id": "C38", "title": "Copy then paste over the same selection changes nothing", "statement": "With a row selection, copy followed by paste of the copied text leaves the formula unchanged and the caret behind the pasted nodes; cut followed by paste restores the formula.", "quantifier": "every editor state with a valid row selection", "why_tests_cant": "All trees and selections.", "anchors": ["aftermath-core/caret/src/math_editor.rs copy, paste, remove_at_caret", "aftermath-core/serialization/src/lib.rs"]}
{"id": "C39", "title": "Pasted data is well formed", "statement": "Whatever text paste accepts, the resulting formula is well formed (grids have positive width, full rows, at least one cell, fractions/roots two and scripts one cell), so that all other calls stay safe. (Expected to be false of this commit: deserialization is derived and bypasses the constructors' asserts.)", "quantifier": "every accepted clipboard text", "why_tests_cant": "Quantifies over all inputs accepted by the deserializer.", "anchors": ["aftermath-core/serialization/src/lib.rs deserialize_input_nodes", "aftermath-core/input_tree/src/grid.rs GridVec derive(Deserialize), from_one_dimensional"]}
{"id": "C40", "title": "The printed form of a formula determines it", "statement": "Two rows (with positive grid widths) that print the same are equal: the textual form used in logs and tests never conflates two different formulas, for any symbol text including quotes, backslashes, spaces and parentheses.", "quantifier": "every pair of rows", "why_tests_cant": "Injectivity over all trees and strings.", "anchors": ["aftermath-core/input_tree/src/row.rs Display for InputRow", "aftermath-core/input_tree/src/node.rs Display for InputNode", "aftermath-core/input_tree/src/grid.rs Display for GridVec", "aftermath-core/input_tree/src/print_helpers.rs"]}
{"id": "C41", "title": "Syntax node names and ids are in one-to-one correspondence", "statement": "After any sequence of name registrations (fewer than 2^32 distinct names): registering a name again returns the same id, distinct names get distinct ids, looking up a registered name gives its id, the reverse lookup of an id gives back the name it was handed out for, and ids never change meaning later. A name is accepted exactly if it has a namespace and a last part, and every part is an identifier (a start character followed by continuing ones); all others panic.", "quantifier": "every sequence of registrations and lookups", "why_tests_cant": "Invariant over all registration histories.", "anchors": ["aftermath-core/parser/src/syntax_tree/node_type_id.rs SyntaxNodeNameMap", "aftermath-core/parser/src/parse_modules.rs ParseModules"]}
{"id": "C42", "title": "2D and linear grid indices agree", "statement": "For every grid of positive width, converting a linear cell index to 2D and back is the identity, cells are addressable in 2D exactly when x<width and y<height, get/get_mut/set address the same cell, and set changes exactly that cell.", "quantifier": "every grid, every index", "why_tests_cant": "All sizes and indices.", "anchors": ["aftermath-core/input_tree/src/grid/index2d.rs Index2D", "aftermath-core/input_tree/src/grid.rs GridVec::get, get_mut, set"]}
{"id": "C43", "title": "Parsing never fails", "statement": "For every rule set that contains the built-in rules (each container kind parseable, no empty symbol sequence) and every well-formed row, MathParser::parse terminates, does not panic (no assertion on ranges, no unknown container, no left-over input reported as error) and returns a tree.", "quantifier": "every such rule set, every well-formed row of any length and nesting", "why_tests_cant": "Totality of a recursive, backtracking, error-recovering parser over all inputs; fuzzing samples finitely many.", "anchors": ["aftermath-core/parser/src/parser.rs MathParser::parse", "aftermath-core/parser/src/parser/pratt_parser.rs PrattParser::pratt_parse, parse_unknown", "aftermath-core/parser/src/math_parser.rs make_parser", "aftermath-core/parser/src/rule_collections/built_in_rules.rs"]}
{"id": "C44", "title": "The syntax tree covers the whole row", "statement": "The root of the syntax tree of a row of n nodes has range 0..n.", "quantifier": "every rule set containing the built-ins, every well-formed row", "why_tests_cant": "All inputs including erroneous ones (missing operands, unmatched brackets, unknown symbols).", "anchors": ["aftermath-core/parser/src/parser/pratt_parser.rs", "aftermath-core/parser/src/syntax_tree/syntax_node.rs range"]}
{"id": "C45", "title": "Syntax tree ranges are contiguous and nested", "statement": "In every syntax tree produced by parse, the ranges of the children of a node on the same row are contiguous (each starts where the previous one ends), the parent's range is exactly from the start of the first to the end of the last child, leaves have non-empty ranges, a node that opens new rows has a range of length one, and each of its rows again has a tree with range 0..length of that row.", "quantifier": "every rule set containing the built-ins, every well-formed row, every node of the result", "why_tests_cant": "Structural invariant over all parses.", "anchors": ["aftermath-core/parser/src/syntax_tree/syntax_node.rs doc invariants lines 8-18, SyntaxNode::new", "aftermath-core/parser/src/rule_collection.rs builders", "aftermath-core/parser/src/math_parser.rs"]}
{"id": "C46", "title": "The syntax tree is lossless", "statement": "Reading the leaves of the syntax tree of a row from left to right and concatenating their symbols, with each new-rows node standing for the container at its position, gives back the text of the row: no symbol is dropped, duplicated or reordered, also in the presence of errors and whitespace.", "quantifier": "every rule set containing the built-ins, every well-formed row", "why_tests_cant": "Losslessness over all inputs.", "anchors": ["aftermath-core/parser/src/math_parser.rs", "aftermath-core/parser/src/make_parser.rs", "aftermath-core/parser/src/parser/pratt_parser.rs", "aftermath-core/parser/src/rule_collections/"]}
{"id": "C47", "title": "Every row of the formula can be found in the syntax tree", "statement": "For every row path that is valid in the formula, walking the syntax tree by that path the way the renderer does (descend by ranges to the new-rows node of the container index, then take the cell) succeeds and arrives at the syntax tree of exactly that row.", "quantifier": "every rule set containing the built-ins, every well-formed formula, every valid row path", "why_tests_cant": "Connects two tree walks for all formulas and paths.", "anchors": ["src/core/index.ts getNodeWithRowIndices, getChildWithNewRows", "aftermath-core/parser/src/rule_collections/built_in_rules.rs make_container_parser", "aftermath-core/parser/src/syntax_tree/syntax_node.rs"]}
{"id": "C48", "title": "Binding powers decide nesting", "statement": "Parsing a flat chain of operands separated by infix operators gives a tree in which an operator with lower binding power never sits below one with higher binding power, and chains of equal power nest to the left for left infix and to the right for right infix operators. Prefix operators take as operand exactly what binds stronger than they do.", "quantifier": "every chain length, every assignment of binding powers to the operators", "why_tests_cant": "All chain lengths and powers.", "anchors": ["aftermath-core/parser/src/parser/pratt_parser.rs pratt_parse, BindingPower::strength_left, strength_right"]}
{"id": "C49", "title": "Later rules take priority", "statement": "When several rules of the same kind match at a position, the one registered last (last module, last rule in it) determines the node.", "quantifier": "every rule set, every input position", "why_tests_cant": "All rule sets and inputs.", "anchors": ["aftermath-core/parser/src/math_parser.rs lines 67-73", "aftermath-core/parser/src/parser/pratt_parser.rs parse_iter"]}
{"id": "C50", "title": "An empty row parses to a missing token and error nodes only appear for errors", "statement": "The empty row parses to a missing-token node of range 0..0 without children. A row parses to a tree without any error node if and only if it is a well-formed expression of the rule set (operands separated by infix operators, with prefix and postfix operators in place, likewise in every cell).", "quantifier": "every rule set containing the built-ins, every row", "why_tests_cant": "All expressions of a grammar.", "anchors": ["aftermath-core/parser/src/parser/pratt_parser.rs", "aftermath-core/parser/src/rule_collections/built_in_rules.rs error_missing_token, error_missing_operator, error_unknown_token"]}
{"id": "C51", "title": "Selection calls move exactly the end they should", "statement": "move_caret puts the caret where the arrow key takes it (whether or not a token is replaced on the way); select_with_caret keeps the start of the caret and moves its end to where the arrow key takes a caret at the end of the shown selection; start_selection collapses the caret on the given position; extend_selection keeps the start and puts the end on the given position; select_all selects the root row from end to end, and copying then gives the whole formula.", "quantifier": "every editor state, every call that does not panic", "why_tests_cant": "All formulas, carets and pending autocorrections.", "anchors": ["aftermath-core/caret/src/math_editor.rs move_caret, select_with_caret, start_selection, extend_selection, select_all"]}
{"id": "C52", "title": "The printed form of a syntax tree determines it", "statement": "Two syntax trees print the same exactly if they have the same shape, the same names, the same grid sizes and the same leaf texts; only ranges, leaf types and the division of a leaf into symbols are lost. Every tree that the parser returns for a well-formed formula can be printed.", "quantifier": "every name map with clear names, every pair of syntax trees, every well-formed formula", "why_tests_cant": "Injectivity over all trees and strings.", "anchors": ["aftermath-core/parser/src/syntax_tree/display_syntax_tree.rs", "aftermath-core/input_tree/src/print_helpers.rs", "aftermath-core/parser/src/syntax_tree/node_identifier.rs"]}
{"id": "C53", "title": "Syntax trees only use names of the rule set", "statement": "Every node of a syntax tree carries the name of a built-in node, of a rule of the rule set, or of its brackets; with the shipped collections each of these names is registered, so the name map handed to the frontend translates every node of every tree.", "quantifier": "every rule set, every formula", "why_tests_cant": "All inputs.", "anchors": ["aftermath-core/parser/src/parser/pratt_parser.rs", "aftermath-core/parser/src/parse_modules.rs", "aftermath-core/parser/src/rule_collections"]}
{"id": "C54", "title": "When MathML can be read, and with which errors", "statement": "Reading a math element throws exactly when reading gets to an msub, msup or msubsup without children. Otherwise it returns a formula and a list of errors. The errors are exactly those of the elements that reading gets to: a wrong number of children, a table of something else than mtr of mtd, an unknown element. The formula is well formed if reading gets to no table without cells; for documents read without errors this is an equivalence.", "quantifier": "every DOM tree, every text segmentation, trimming and normalisation function", "why_tests_cant": "All documents, including malformed ones; errors and exceptions depend on which parts of a malformed document are skipped.", "anchors": ["src/mathml/parsing.ts"]}
{"id": "C55", "title": "What is read is what the document means", "statement": "A document is read without errors and gives the formula r exactly when r is the meaning of the document: groups are concatenated, tokens are split into symbols, text is quoted, fractions, roots, scripts and tables become containers with the cells in the right places, short table rows are filled up with empty cells. Every document without an element to complain about has exactly one meaning.", "quantifier": "every DOM tree, every formula", "why_tests_cant": "An equivalence over all documents and formulas.", "anchors": ["src/mathml/parsing.ts"]}
{"id": "C56", "title": "Setting the attribute mathml", "statement": "Setting the attribute replaces the whole formula by what the document means, as one undo step: undo gives the formula and the caret back, redo the new formula. Afterwards the caret is valid and the syntax tree of the formula can be computed.", "quantifier": "every editor state, every document", "why_tests_cant": "All editor states and documents.", "anchors": ["src/component/math-editor.ts", "aftermath-core/caret/src/math_editor.rs"]}
{"id": "C57", "title": "Every formula can be shown", "statement": "The renderer can be made for the shipped rules, and rendering the syntax tree of a well-formed formula never throws. (False of this commit: after a superscript or subscript followed by a space it throws. A formula is shown exactly when no script in its tree has spaces directly around it. A formula that is read without errors is shown exactly when no script in it is directly followed by a space; any formula is shown in which no script stands next to a space.)", "quantifier": "every well-formed formula, the shipped rules, every table of letters", "why_tests_cant": "All formulas, of any size and nesting; the renderer's assertions depend on how the parser attaches spaces.", "anchors": ["src/mathml/renderer.ts", "src/mathml/renderer/", "aftermath-core/parser/src/rule_collections/"]}
{"id": "C58", "title": "Every caret can be drawn", "statement": "Whenever a formula is shown: every row of the formula has its own rendered element, that element has a place for every offset of the row, and drawing any valid caret or selection, of text or of table cells, throws nothing. As long as no token is replaced (C26) this holds for the caret of the editor.", "quantifier": "every well-formed formula that is rendered, every valid caret, everything the browser may report about places", "why_tests_cant": "All formulas and all positions, and all layouts a browser may produce.", "anchors": ["src/mathml/render-result.ts", "src/mathml/renderer/", "src/component/math-editor.ts"]}
{"id": "C59", "title": "A click gives a position of the formula", "statement": "For every point on the screen, the search for the position under the pointer ends without throwing and gives a position that exists in the formula. (False of this commit: where a cell consists of a base with a script, a click on the script gives a position with one index twice, and asking for the caret then panics. It holds for all formulas without a script in a cell, and for all formulas where no cell is just a script expression.)", "quantifier": "every well-formed formula that is rendered, every point, everything the browser may report about places", "why_tests_cant": "All formulas, points and layouts; the tests have no browser.", "anchors": ["src/mathml/render-result.ts", "src/input-tree/row-indices.ts", "src/component/math-editor.ts"]}
{"id": "C60", "title": "A click gives the closest position", "statement": "The search starts at an element under the pointer none of whose children is under the pointer, or at the whole formula. Among all caret positions in the row of this element and in the rows inside it, the result is one whose place is closest to the pointer, if the boxes of the elements contain the places inside them. In particular a click exactly on the place of a caret gives a position at this place.", "quantifier": "every well-formed formula that is rendered (C59), every point, every layout", "why_tests_cant": "All formulas, points and layouts; the search skips elements that are too far away.", "anchors": ["src/mathml/render-result.ts", "src/rendering/viewport-coordinate.ts"]}
{"id": "C61", "title": "What is shown is the formula", "statement": "After every event that does not throw, the kept syntax tree is the parse of the current formula and the kept render result is what the renderer makes of it. (False of this commit: moving the pointer, releasing it and double clicks end the pending autocorrection, which can replace a token, without rendering again. This is the only way: after every other event, and after these unless the formula changes, it holds.)", "quantifier": "every sequence of events of the component, with whatever the browser reports", "why_tests_cant": "All interleavings of keyboard, clipboard, timer, attribute and pointer events.", "anchors": ["src/component/math-editor.ts"]}
{"id": "C62", "title": "Which events throw", "statement": "With the shipped rules, when no token is about to be replaced: a new component can be made; pressing, moving and releasing the pointer and double clicks never throw (no script in a cell, C59); arrow keys throw only where the move panics; undo, redo, typing, deleting, cutting, pasting and setting the attribute throw exactly when the call to the editor panics or the new formula cannot be shown (C57), and otherwise the component shows the formula that the call makes. (That no event throws is false: typing a space behind a superscript does.)", "quantifier": "every state reached by such events, every event, every layout", "why_tests_cant": "All formulas, carets and event sequences; combines editor, parser, renderer and layout.", "anchors": ["src/component/math-editor.ts", "aftermath-core/web/src/math_editor.rs"]}
{"id": "C63", "title": "The formula is always well formed", "statement": "Whatever is called, in whatever order, with whatever positions and ranges, and also after replacements of tokens and with a caret that does not exist: as long as inserted nodes have grids that fit their sizes, so has the formula. Copied data can be inserted again in this sense.", "quantifier": "every sequence of editor calls", "why_tests_cant": "All sequences of calls including undo, redo, autocomplete and splices.", "anchors": ["aftermath-core/caret/src/math_editor.rs"]}
{"id": "C64", "title": "Typed input is applied in order", "statement": "Each beforeinput event puts one input at the end of the queue, and nothing but the timer takes inputs off it. A timer hands the first inputs of the queue to the editor, in order, as the calls insert or remove, even if something throws; without an exception it empties the queue. There are never more inputs waiting than timers running, so none is left when all timers have fired. While nothing happens but typing, the editor has in the end got the calls of all inputs in the order of the events, however the timers fire and whatever throws. (With other events in between this is false of this commit: an arrow key pressed before the timer fires is applied before the text.)", "quantifier": "every sequence of events, every interleaving of timers, with or without exceptions", "why_tests_cant": "Interleavings of timers and exceptions are unbounded.", "anchors": ["src/component/math-editor.ts"]}
{"id": "C65", "title": "Selecting with the pointer", "statement": "Pressing, moving any number of times and releasing the pointer selects from the position under the pointer at the press to the position under it at the release, whatever was in between. While the pointer is not pressed, moving it and clicking do nothing. Only pressing sets the flag, and only releasing or cancelling resets it, also when something throws. (Two expectations are false of this commit: double and triple clicks select no word or line but put the caret under the pointer, and releasing the pointer extends the selection even if it was not pressed here.)", "quantifier": "every state, every number of pointer moves, every layout", "why_tests_cant": "Any number of moves, any formula and any layout.", "anchors": ["src/component/math-editor.ts", "aftermath-core/caret/src/math_editor.rs"]}
{"id": "C66", "title": "What exceptions leave behind", "statement": "An exception in TypeScript leaves the editor in a state that its own API reaches, with a tree that belongs to its formula; a key that throws has still done its edit. The next event that shows the formula without throwing shows the current one. With the shipped rules and no token about to be replaced, a call ends the editor exactly when it panics, and throws exactly when the new formula cannot be shown; when typing text throws, undo does not throw and brings back formula and caret. (That exceptions are harmless is false of this commit: the old formula stays clickable, and a click on it can put the caret outside of the current formula, after which Backspace panics.)", "quantifier": "every sequence of events with exceptions", "why_tests_cant": "All states after any number of exceptions.", "anchors": ["src/component/math-editor.ts", "aftermath-core/web/src/math_editor.rs"]}
{"id": "C67", "title": "The page says what the formula says", "statement": "The MathML elements that the component puts on the page for a formula it can show have the numbers of children that MathML asks for, and reading them gives the formula: its characters, its containers with kind and columns, and its cells, in order. Two shown formulas of one-character symbols that read the same are the same. Tokens become the elements meant for them (numbers mn, variables and constants mi, text mtext, operators mo, unknown tokens merror). There is one marked element per missing token and one merror per unknown token, and there is none of both exactly if the formula is a well-formed expression.", "quantifier": "every formula that can be shown, every table of letters that contains a to z", "why_tests_cant": "All formulas of any depth.", "anchors": ["src/mathml/renderer.ts", "src/mathml/renderer/rendered-root-element.ts", "src/mathml/renderer/rendered-table-element.ts", "src/mathml/renderer/rendered-rows-element.ts", "src/mathml/renderer/rendered-text-element.ts"]}
{"id": "C68", "title": "Where carets and selections are drawn", "statement": "A selection is drawn in the same way in both directions; a caret has no width; all selections in a row have the baseline of the first caret of the row. If the browser sets elements from left to right, carets go from left to right, and a selection reaches exactly from the caret at its left end to the caret at its right end. Its height is finite and the smallest that contains the boxes of the elements that make it up: the largest elements selected as a whole and undivided elements selected in part. A caret after a symbol is before the next symbol of the same token or at the right edge of the token, a caret after a fraction, table and the like is at the reader after it, and the first caret of a row is at the left edge of its first element.", "quantifier": "every formula that can be shown, every row and range in it, every geometry reported by the browser", "why_tests_cant": "All formulas and all geometries.", "anchors": ["src/mathml/render-result.ts", "src/mathml/renderer/rendered-leaf.ts", "src/mathml/renderer/rendered-container-element.ts", "src/mathml/renderer/rendered-rows-element.ts", "src/rendering/rendered-selection.ts"]}
{"id": "C69", "title": "The shipped parser reads the usual notation", "statement": "With the shipped rules, a row that is written according to the levels of the operators (equality, then comparisons and commas, then sums and logical connectives, then products, then signs, then factorials, powers, indices and function application; operators of one level from left to right; whole and decimal numbers, variables of several letters, constants, strings with escaped characters; sums, integrals and limits; prefix and infix operators with any number of scripts, like the limits of a sum; function application, also to nothing; fractions, roots and tables with formulas in their cells; brackets and spaces wherever needed and wherever wanted) is parsed to a syntax tree that says the formula it was written for, and no other. So every formula can be written, and no row is a way to write two formulas.", "quantifier": "every formula of any size, every way to put additional brackets and spaces, every table of letters in which digits start no name and characters with a meaning of their own are in none", "why_tests_cant": "All formulas and all ways to put brackets and spaces.", "anchors": ["aftermath-core/parser/src/parser/pratt_parser.rs", "aftermath-core/parser/src/math_parser.rs", "aftermath-core/parser/src/rule_collections/arithmetic_rules.rs", "aftermath-core/parser/src/rule_collections/comparison_rules.rs", "aftermath-core/parser/src/rule_collections/logic_rules.rs", "aftermath-core/parser/src/rule_collections/calculus_rules.rs", "aftermath-core/parser/src/rule_collections/function_rules.rs", "aftermath-core/parser/src/rule_collections/core_rules.rs", "aftermath-core/parser/src/rule_collections/string_rules.rs", "aftermath-core/parser/src/rule_collections/built_in_rules.rs"]}
{"id": "C70", "title": "Which texts can be pasted", "statement": "A text can be pasted exactly if it is a JSON text (RFC 8259) of a record with a version number and a list of nodes, nested at most as deep as the reader allows; what is pasted are these nodes, and no text stands for two lists of nodes. White space, the order of members, unknown members and escapes make no difference to what pasting does. Every other text is refused, and the formula, the caret and the undo history stay as they are. What is copied is a JSON text that is known character by character: no white space, one order of members, and escapes only where they are needed.", "quantifier": "every text, every state of the editor", "why_tests_cant": "All texts: any white space, order, escapes, numbers and nesting.", "anchors": ["aftermath-core/serialization/src/lib.rs", "aftermath-core/caret/src/math_editor.rs", "aftermath-core/input_tree/src/node.rs", "aftermath-core/input_tree/src/grid.rs", "aftermath-core/input_tree/src/row.rs"]}
{"id": "C71", "title": "What autocorrection adds to a call", "statement": "Without a completed token left of the caret, moving, selecting, deleting, typing and pasting do the same with and without autocomplete rules, panics included; all calls that have nothing to do with autocompletion do so in every state. With a completed token, a call that leaves the caret in the row of the token does what it does without rules. A call that only moves the caret, out of the token, does the same as without rules, replaces the token as well, or panics, depending only on where the token starts and on its length; a call that dissolves the element around the token in the outermost row panics. No other calls panic that do not panic without rules; left open are only deletions that dissolve an element inside of another element.", "quantifier": "every state reachable by well-formed calls, every call, all sets of ASCII rules", "why_tests_cant": "All states, rules and calls.", "anchors": ["aftermath-core/caret/src/math_editor.rs", "aftermath-core/caret/src/autocomplete.rs", "aftermath-core/input_tree/src/editing/editable.rs"]}
{"id": "C72", "title": "What the parser makes of any row", "statement": "Every row, however broken, is read in exactly one way as a sequence of operands, operators, missing operands, missing operators and runs of unknown symbols, and the parser returns the only tree over this sequence that is nested according to the binding powers. A missing operator binds like a left associative infix operator of power 100; an unknown symbol after an operand belongs to that operand before any operator; operands side by side are grouped from the left. So nothing is dropped and each error node stands exactly where a token is missing or unknown. The same holds inside of brackets, and for the rules that are shipped.", "quantifier": "every well-formed row, every set of rules that parse something and cannot be nullable; for the shipped rules, every row", "why_tests_cant": "All rows, also all those that are not formulas, and all sets of rules.", "anchors": ["aftermath-core/parser/src/parser/pratt_parser.rs", "aftermath-core/parser/src/math_parser.rs", "aftermath-core/parser/src/rule_collections/built_in_rules.rs"]}
{"id": "C73", "title": "How every event ends", "statement": "For every state that well-formed nodes lead to, also after exceptions: a key or task that calls the editor ends the editor if the call panics; otherwise it throws if the new formula cannot be shown, ends the editor if it can be shown and the caret is no position of it, and ends well in all other cases, showing the new formula. The calls that panic are known exactly, also with a completed token left of the caret. The Right key behind such a token of k symbols that ends at offset o, with a symbol to the right: it panics if k < o-k, only moves if o-k < k, and for o-k = k replaces the token and loses the caret exactly if the new row is too short. Setting the attribute ends the editor exactly if an end of the selection is inside of an element or the caret is lost; a click ends it exactly if the position found is not in the formula.", "quantifier": "every component state, event, formula, document and layout; for the exact panics every state in which the caret is not lost", "why_tests_cant": "All states of the editor, all formulas and documents, all layouts.", "anchors": ["src/component/math-editor.ts", "aftermath-core/caret/src/math_editor.rs", "aftermath-core/caret/src/caret.rs"]}
{"id": "C74", "title": "The panics of all calls in all states", "statement": "In every state that calls with well-formed nodes lead to, the calls that panic are known exactly: also with a lost caret, with symbols of any number of characters, and when the caller passes positions that the formula does not have. A call panics if and only if (1) it looks up the caret and the caret is lost, or a symbol without characters is left of it while there are rules; or (2) it panics without rules; or (3) it is a direct splice at a range that the formula does not have, or in the outermost row while the caret is in an element; or (4) a completed token is left of the caret, and replacing it panics: the new caret is no position of the formula, the token is looked for in a place that does not exist or that is too far from the start of its row, or the element around it in the outermost row is dissolved. While the caret is lost it stays lost until the next select_all, undo, redo or direct splice; select_all always finds it again.", "quantifier": "every state after any sequence of calls with well-formed nodes, every call, every set of rules with good results", "why_tests_cant": "All call sequences and all formulas, also the states after the caret was lost.", "anchors": ["aftermath-core/caret/src/math_editor.rs", "aftermath-core/caret/src/autocomplete.rs", "aftermath-core/caret/src/editor_action_builder.rs"]}
{"id": "C75", "title": "Which words are suggested and completed", "statement": "Behind a text, that is, characters that are single symbols, the autocompletion list consists of exactly the rules whose word begins with the last k characters of the text, for every k of two or more, with small k first and the rules of the same k in their own order. The first entry of the rule that was selected last is selected, or else the first entry; its rule is remembered. A word is completed (so that leaving it replaces it) if and only if the text ends with it and either its rule was selected before and it does not begin with a shorter ending of itself, or the rule selected before does not fit any more, no rule begins with a shorter ending of the word, and no earlier rule begins with the word. Typing characters one by one inserts them whatever is suggested. With the rules that are shipped, without an earlier selection, exactly ten words are completed; typed character by character, exactly eleven (liminf too); lim, ^, _ and / are not. Accepting the suggestion replaces exactly the characters it covers by the result of its rule and leaves the caret; typing one of the eleven words and accepting it puts the symbol or element it stands for in its place.", "quantifier": "every formula, every caret position behind single-character symbols, every list of rules of ASCII words, every remembered rule, every typed text", "why_tests_cant": "All texts, all rule lists and all histories of selections; the completed words depend on interactions between all rules.", "anchors": ["aftermath-core/parser/src/autocomplete.rs", "aftermath-core/parser/src/parser.rs", "aftermath-core/caret/src/autocomplete.rs", "aftermath-core/caret/src/math_editor.rs", "aftermath-core/parser/src/rule_collections/calculus_rules.rs"]}
{"id": "C76", "title": "How every event ends, in every state", "statement": "In every state that events with well-formed data lead to, also after exceptions, after clicks that replace a token without showing the new formula, and with a caret that is outside of the formula: an event ends the editor (a panic, after which no call works) if and only if the call it makes panics, or the new formula can be shown and the caret is then outside of it; it throws an exception if and only if the imported MathML or the pasted text is rejected, the new formula cannot be shown, or what is selected does not exist in the formula that is still drawn. A click always finds a position, whatever the browser says about places. There is a state, reached by a click and a double click in a formula with a completed token, where the stored syntax tree is longer than the formula; setting the attribute then always ends the editor.", "quantifier": "every sequence of browser events with well-formed data, every layout the browser reports, every resulting state, every next event", "why_tests_cant": "All histories of events and all layouts. Stale drawings and lost carets arise only by particular sequences.", "anchors": ["src/component/math-editor.ts", "src/component/input/input-handler-element.ts", "src/mathml/parsing.ts", "src/rendering/render-result.ts", "src/rendering/rendered-selection.ts", "aftermath-core/caret/src/math_editor.rs"]}
{"id": "C77", "title": "A formula that is typed or loaded is shown with its meaning", "statement": "From the events to the page. Characters are typed one by one, with the timers of the input queue firing at any moments: when all timers have fired, all characters are in the formula, in order and next to each other, the caret is behind them, nothing else has changed, and the syntax tree and the page belong to the new formula. The editor never ends on the way, even when a formula on the way cannot be shown and throws. If the resulting formula is one of the notation (C69: all constructs of the shipped rules, with brackets and spaces) and no script in it is directly followed by a space (C57), then the syntax tree has the meaning of this formula and of no other, the page has its characters, containers and cells in order, and nothing on it is marked as missing or as an error. The same holds when a MathML document that is read as such a formula is loaded or set as the attribute, and when characters are typed in front of a loaded document. In particular it holds for every formula that is written without needless brackets and spaces.", "quantifier": "every formula of the notation, every way to write it, every state of the editor behind a text, every interleaving of input events and timers, every document that is read as such a formula, every layout", "why_tests_cant": "All formulas and all interleavings; it joins the input queue, the editor, the parser, the renderer and the import.", "anchors": ["src/component/math-editor.ts", "src/component/input/input-handler-element.ts", "src/mathml/parsing.ts", "src/mathml/renderer.ts", "aftermath-core/caret/src/math_editor.rs", "aftermath-core/parser/src/parser.rs", "aftermath-core/parser/src/rule_collections/arithmetic_rules.rs"]}
{"id": "C78", "title": "Exactly the rows of the notation are read without errors", "statement": "With the shipped rules, a well-formed row whose symbols are single characters is parsed to a tree without error nodes (missing operators, missing tokens, unknown tokens) if and only if it is a way to write some formula in the notation of C69; and for every formula, the tree conveys it if and only if the row is a way to write it. So the notation is complete: nothing else is ever accepted. A formula that is shown is shown without missing and error marks if and only if it is one of the notation. For instance 2x, f( ), a+*b and the empty row are no formulas, and `limit` is the limit of `it`.", "quantifier": "every well-formed row of single-character symbols, every formula, every usual table of letters", "why_tests_cant": "That nothing else is accepted is a statement about all rows and all derivations; the accepted language depends on the interplay of all rules, their order, spaces, scripts and binding powers.", "anchors": ["aftermath-core/parser/src/parser.rs", "aftermath-core/parser/src/make_parser.rs", "aftermath-core/parser/src/rule_collections/arithmetic_rules.rs", "aftermath-core/parser/src/rule_collections/calculus_rules.rs", "src/mathml/renderer.ts"]}
{"id": "C79", "title": "The effort of parsing", "statement": "Effort is the number of calls of pratt_parse while a row is parsed. For every row that the shipped parser reads without errors and in which no infix operator has a script (perhaps behind spaces), the effort is at most the number of nodes and cells plus one. The same holds for every row without opening brackets in which no infix operator has a script, whatever errors are in it. Otherwise there is no such bound: a row of n opening brackets takes exactly 3^n calls; n nested pairs of brackets, all closed, each with a character before it that no rule can read, take 2^(n+1)-1 calls; and there are formulas without errors, with a script at an infix operator nested n deep, of 6n+1 nodes and cells, that take at least 2^n calls. For every row whatsoever the effort is below K^(number of nodes and cells + 1), with one K for the whole grammar.", "quantifier": "every well-formed row, every n, every usual table of letters", "why_tests_cant": "A bound for all rows is a statement about all inputs; the growth cannot be seen from single measurements, and large instances do not end.", "anchors": ["aftermath-core/parser/src/parser/pratt_parser.rs", "aftermath-core/parser/src/math_parser.rs", "aftermath-core/parser/src/rule_collections/built_in_rules.rs"]}
{"id": "C80", "title": "What is drawn for the caret", "statement": "The component draws exactly one caret, and nothing of the previous drawing is left. Without a selection it is one line as high as the font size of the row, a tenth of it below the baseline. With a selection in a row it is a line and one box; if the browser sets everything from left to right, the line is where the caret at the moving end would be drawn, and the box reaches from the line of its left end to that of its right end. In general the line is at the moving end unless the selection goes forwards in the row and backwards on the screen. With the ends in two cells of a table there is no line, and one box, the smallest around the two cells; it covers exactly the cells of the rectangle with these corners if cells fill their columns and rows. If cells are centred in their columns, selected cells can stick out of it.", "quantifier": "every formula that can be shown, every selection in it, everything the browser may report about places", "why_tests_cant": "Which places a browser reports depends on fonts and styles; the tests of the project do not run a browser.", "anchors": ["src/component/math-editor.ts", "src/component/caret/single-caret-element.ts", "src/rendering/viewport-coordinate.ts", "src/mathml/render-result.ts"]}
{"id": "C81", "title": "A change inside of an element stays inside of it", "statement": "If the content of one row of a formula is replaced, for example that of a denominator, then in the syntax tree only the tree of this row changes, and it is the tree of the new content read by itself; all other nodes keep their names, places and order. If the formula is shown, then afterwards it can be shown exactly when the new content can be shown by itself, and then only the element of this row is replaced on the page. Hence whether a formula can be shown is decided row by row. In particular this holds for typing at the caret.", "quantifier": "every formula, every row in it, every new content; every sequence of typed characters and moments at which timers fire", "why_tests_cant": "The parser runs over the whole formula on every change; that nothing outside of the row depends on it concerns all rules at all places.", "anchors": ["aftermath-core/parser/src/math_parser.rs", "aftermath-core/parser/src/parser/pratt_parser.rs", "aftermath-core/parser/src/rule_collections/built_in_rules.rs", "src/mathml/renderer.ts", "src/component/math-editor.ts"]}
{"id": "C82", "title": "The editors of a page do not disturb each other", "statement": "main.ts puts an editor in place of every formula of the document. Every formula that can be read is then in the editor at its place, is shown if it can be shown, and the caret is at its beginning, even if other formulas of the page throw or end their editors; a document that cannot be read gives an empty editor. The first undo after loading leaves the formula as it is, because it is set twice; the second one empties it, and further ones do nothing. Whatever happens later, every editor is in the state it would have alone with its own events, where a paste gets what is on the clipboard by then. What is copied or cut in one editor and pasted into any other is inserted there as it is, with any events in between that do not copy. Copying and cutting put exactly the selected part of a row onto the clipboard; if cells of a grid are selected, the editor ends and the clipboard stays as it was.", "quantifier": "every page with any number of formulas, every sequence of events of any of its editors and of other programs that use the clipboard", "why_tests_cant": "Interleavings of the events of any number of editors, exceptions and panics at any of them.", "anchors": ["src/main.ts", "src/component/math-editor.ts", "aftermath-core/caret/src/math_editor.rs", "aftermath-core/serialization/src/lib.rs"]}
{"id": "C83", "title": "Moving an editor to another place of the document keeps it", "statement": "When the element of an editor is removed from the document and inserted again, for example because a list is sorted, the editor goes on with the formula it had.", "quantifier": "every state of the editor in which what is shown is up to date, every value of the attribute that can be read", "why_tests_cant": "Depends on the formula, the place of the caret and the value of the attribute together.", "anchors": ["src/component/math-editor.ts", "aftermath-core/caret/src/math_editor.rs"]}
{"id": "C84", "title": "What can be written without pasting", "statement": "Starting from an empty editor with the shipped autocomplete rules, and without pasting, splicing or setting the attribute, exactly those formulas can be made whose nodes, in all cells, are symbols (not empty), roots and tables of one cell; any such formula can be made. More generally a formula has no other nodes than these as long as nothing else is pasted, spliced or set by the attribute, whatever else happens, undo, redo, deletions and exceptions in handlers included. So there is no way to type a fraction, a superscript or a subscript.", "quantifier": "every sequence of calls of the editor, every sequence of events of the component, every formula", "why_tests_cant": "Says of every sequence of calls that it does not lead to some formulas, and of infinitely many formulas that some sequence of calls leads to each.", "anchors": ["aftermath-core/caret/src/math_editor.rs", "aftermath-core/caret/src/autocomplete.rs", "aftermath-core/parser/src/autocomplete.rs", "aftermath-core/parser/src/rule_collections/built_in_rules.rs", "aftermath-core/parser/src/rule_collections/collections_rules.rs", "aftermath-core/parser/src/rule_collections/arithmetic_rules.rs", "src/component/math-editor.ts"]}
{"id": "C85", "title": "What can be selected with the keyboard", "statement": "Without calls of select_with_caret, select_all and extend_selection the caret of the editor is always a single position and copy gives no nodes. The component makes these calls only when the pointer moves or is released, so after any keys, text input, clipboard events, presses of the pointer and changes of the attribute, exceptions included, nothing is selected and the copy key copies no nodes. With select all and the arrow keys, with and without Shift, every range of every row can be selected in both directions, from every state, without changing formula or history, if no word of an autocomplete rule occurs in the formula and its symbols are single characters. On a selection of cells of a table, typing, deleting and Shift with an arrow key panic and the arrow keys do nothing.", "quantifier": "every sequence of calls of the editor, every sequence of events of the component, every formula, every row and range", "why_tests_cant": "Says of every sequence of events that it selects nothing, and of every range of every formula that some sequence of calls selects it.", "anchors": ["src/component/math-editor.ts", "aftermath-core/caret/src/math_editor.rs", "aftermath-core/caret/src/primitive/movement.rs", "aftermath-core/caret/src/caret.rs"]}
{"id": "C86", "title": "The syntax tree and the page grow linearly with the formula", "statement": "For a formula with n symbols, containers and cells (at all depths), well formed or not, the syntax tree has at most 3.5 n + 1 nodes, and this bound is reached for every even n. If there are no errors it has less than 2 n nodes. Rendering makes one element for each node, and at most 21 n + 3 DOM elements are put on the page. (The effort of parsing, in contrast, can be exponential, C79.)", "quantifier": "every formula, every table of identifier characters", "why_tests_cant": "A bound for formulas of every size and with any errors in them, and a family of formulas that reaches it.", "anchors": ["aftermath-core/parser/src/parser/pratt_parser.rs", "aftermath-core/parser/src/math_parser.rs", "aftermath-core/parser/src/make_parser.rs", "aftermath-core/parser/src/rule_collection.rs", "aftermath-core/parser/src/syntax_tree/syntax_node.rs", "src/mathml/renderer.ts", "src/mathml/renderer/rendered-table-element.ts"]}
{"id": "C87", "title": "Which formulas are a single name, number or string", "statement": "With the shipped rules, the tree of a formula is one Variable leaf with given texts exactly if the formula consists of symbols with these texts, the first begins with a letter, every other character of all symbols can go on a name, and the symbols do not begin with l, i, m. It is one Number leaf exactly if the symbols are one or more symbols of digits, with or without a symbol '.' and one or more symbols of digits. It is one String leaf exactly if the symbols are between quotes and every quote and backslash in between is escaped. Symbols can have several characters (letters with accents) or none; a symbol without characters alone is a number.", "quantifier": "every formula, all texts, every table of identifier characters in which digits start no name and characters with a meaning of their own are in none", "why_tests_cant": "An exact criterion for all formulas, with symbols of any number of characters.", "anchors": ["aftermath-core/parser/src/rule_collections/core_rules.rs", "aftermath-core/parser/src/rule_collections/arithmetic_rules.rs", "aftermath-core/parser/src/rule_collections/string_rules.rs", "aftermath-core/parser/src/parser/pratt_parser.rs", "aftermath-core/parser/src/math_parser.rs"]}
{"id": "C88", "title": "A parser can be made from any choice of the modules", "statement": "All values of MathModules can be created, and makeMathParserWith with all of them is the usual parser. For every list of these modules, in any order and with repetitions, makeMathParserWith gives a parser that reads every formula to a tree over the whole formula, with the text of the formula, whose names all have a path in the name map. Two lists with the same modules give parsers that read every formula to the same tree: order and repetitions do not matter. Adding modules leaves the tree of every formula that is read without an error unchanged, except that with the module Calculus a name cannot begin with l, i, m.", "quantifier": "every list of the modules, every formula, every table of identifier characters with the ASCII letters (for the last two: in which digits start no name and characters with a meaning of their own are in none)", "why_tests_cant": "Every choice and order of the modules and every formula: the shipped page and the tests use only one list of modules in one order.", "anchors": ["src/core/index.ts", "aftermath-core/web/src/math_parser.rs", "aftermath-core/parser/src/parse_modules.rs", "aftermath-core/parser/src/math_parser.rs", "aftermath-core/parser/src/rule_collections/calculus_rules.rs", "aftermath-core/parser/src/parser/pratt_parser.rs"]}
{"id": "C89", "title": "The keys for undo and redo walk through the formulas of the session", "statement": "Whatever events the component has handled, there is a list of formulas that begins with the empty formula and contains the current one, as long as the undo and redo stacks. Every Ctrl+Z goes one place back and every Ctrl+Y one place forward in this list, and at the ends they do nothing; a key that does not throw shows the formula it leads to, with its tree. n keys for undo and then n for redo give back the formula. Unless an abbreviation was completed over formulas, these keys never end the editor, the caret is a place of the formula, and every formula that can be shown is shown. Typing characters one by one behind a text, with timers at any moments, and pressing Ctrl+Z as often gives back the formula, the caret and what can be undone, and the page shows it.", "quantifier": "every sequence of events before, every sequence of keys for undo and redo with every layout of the browser, every typed text", "why_tests_cant": "All sessions and all sequences of keys, with exceptions and timers at any moments; tests can only replay a few of them.", "anchors": ["src/component/math-editor.ts", "src/component/input/input-handler-element.ts", "aftermath-core/caret/src/undo_redo_manager.rs", "aftermath-core/caret/src/math_editor.rs", "aftermath-core/input_tree/src/editing/editable.rs"]}
{"id": "C90", "title": "Which formulas survive being loaded from the MathML that is shown for them", "statement": "Loading the elements that are on the page for a formula (as the content of `mathml`) never throws. The formula comes back exactly if it consists of symbols only and no unknown token, no space and no string is on the page; missing operands do no harm, and then there are no complaints. If the formula has a fraction, root, table or script, or if an unknown token or a space is on the page, then a symbol `Error` is in the loaded formula.", "quantifier": "every formula that is shown, with symbols of one character that the browser leaves as they are (for the symbol Error: every formula that is shown)", "why_tests_cant": "All formulas; how a formula is shown depends on how it is parsed, and a formula read without complaints can still be the wrong one (strings).", "anchors": ["src/mathml/parsing.ts", "src/mathml/renderer.ts", "src/mathml/renderer/rendered-table-element.ts", "src/mathml/renderer/rendered-missing.ts", "src/component/math-editor.ts"]}
{"id": "C91", "title": "The helpers for arrays, maps and the popup do what their names say", "statement": "getBinaryInsertIndex, for an array ordered by the comparison, gives the place of an element with comparison 0, or else the only place at which such an element can be put in; it never looks outside of the array and compares at most log2(n)+1 times. remove removes the first equal element and says whether there was one. takeWhile gives the elements before the first that fails the condition. range gives start, start+1, ..., end-1 and throws exactly if end < start. zipWith pairs equal places up to the longer end. shallowEquals compares element by element. groupBy gives for each key the values with this key in order, without empty groups, in the order of first occurrence. getOrDefault keeps a present value and otherwise stores the default. setElements lists exactly the given entries and shows the popup exactly if there are some.", "quantifier": "all arrays, comparisons, conditions, keys and maps", "why_tests_cant": "Arrays of any length and any comparison; off-by-one mistakes in a binary search appear only for some lengths and places.", "anchors": ["src/utils/array-utils.ts", "src/utils/map-utils.ts", "src/component/autocomplete/autocomplete-element.ts"]}
{"id": "C92", "title": "skipWhile skips, and a memoized function returns what the function returns", "statement": "skipWhile(array, p) is the array without the elements before the first one that fails p. A function made by memoize returns, at every call, what the original function returns for the same arguments.", "quantifier": "all arrays and conditions; all sequences of calls with any arguments", "why_tests_cant": "All sequences of calls; the wrong cases need particular earlier calls or particular numbers of arguments.", "anchors": ["src/utils/array-utils.ts", "src/utils/memoize.ts"]}
{"id": "C93", "title": "greedy_choice takes the longest match", "statement": "greedy_choice gives the result of a parser with the longest match and goes on parsing directly behind this match.", "quantifier": "all non-empty lists of parsers, all inputs and positions", "why_tests_cant": "All combinations of parsers; the mistake depends on the order of the parsers.", "anchors": ["aftermath-core/parser/src/parser/greedy_choice.rs"]}
{"id": "C94", "title": "Going back after failed attempts and asking before parsing do not change what is read", "statement": "The parsers are built from combinators that leave the input where they stopped when they fail, that panic when a repetition reads nothing, and that can be run in a mode (InputRef::check, used by can_parse) in which the closures building nodes are not called and containers are not looked into. Run like this on a well-formed row, the parser returns exactly the tree that is obtained by trying every parser from its starting place and always building the nodes; it does not panic. For each rule and place, can_parse says true exactly if parse_safe succeeds, and a failed parse_safe leaves the offset as it was.", "quantifier": "all usable rule sets, all well-formed rows, all places in them, all rules", "why_tests_cant": "Rows of any length and nesting; a forgotten rewind shows only when a parser fails after having read something and another one is tried, a wrong answer of can_parse only next to errors.", "anchors": ["aftermath-core/parser/src/parser/pratt_parser.rs", "aftermath-core/parser/src/math_parser.rs", "aftermath-core/parser/src/make_parser.rs", "aftermath-core/parser/src/parser_extensions.rs", "aftermath-core/parser/src/rule_collections/built_in_rules.rs", "aftermath-core/parser/src/rule_collections/string_rules.rs", "aftermath-core/parser/src/rule_collections/arithmetic_rules.rs"]}
{"id": "C95", "title": "What stands in brackets is read like a row of its own", "statement": "If brackets and quotes are closed in a row pre ( r ) post, and also in r, and the opening bracket is not inside of quotes, then parsing the row gives a tree with a node for these brackets whose middle child is the tree that parsing r alone gives, with all ranges moved by the position of r. So nothing that stands outside of a pair of brackets changes how its contents are read, also if there are errors in them. Brackets around a whole row give a Core::RoundBrackets node with the tree of the row in it.", "quantifier": "all well-formed rows, all pairs of brackets in them that are not empty, at any depth, with any text before and behind them", "why_tests_cant": "Any contents in any context: a token that reaches over a bracket, a power that leaks into the brackets or an error that takes in the closing bracket shows only for certain pairs of contents and contexts.", "anchors": ["aftermath-core/parser/src/parser/pratt_parser.rs", "aftermath-core/parser/src/make_parser.rs", "aftermath-core/parser/src/math_parser.rs", "aftermath-core/parser/src/rule_collections/core_rules.rs", "aftermath-core/parser/src/rule_collections/function_rules.rs", "aftermath-core/parser/src/rule_collections/string_rules.rs"]}
{"id": "C96", "title": "A change within brackets changes nothing outside of them", "statement": "If brackets and quotes are closed in a row pre ( r1 ) post, and also in r1, and the opening bracket is not inside of quotes, and r1 is replaced by another row r2 that is not empty and where brackets and quotes are closed too, then parsing gives the same tree as before, except that the brackets are around the tree that parsing r2 alone gives instead of that of r1, and that the ranges of what comes behind the brackets are moved by the difference of the lengths. Names, nesting, errors and ranges of everything else stay the same.", "quantifier": "all well-formed rows, all pairs of brackets in them that are not empty, at any depth, with any text before and behind them, and all balanced replacements of any length", "why_tests_cant": "Any two contents in any context: that what is in the brackets leaks out, say by a power that is not reset, by a lookahead over the closing bracket or by an error that swallows it, shows only for certain combinations.", "anchors": ["aftermath-core/parser/src/parser/pratt_parser.rs", "aftermath-core/parser/src/make_parser.rs", "aftermath-core/parser/src/math_parser.rs", "aftermath-core/parser/src/rule_collections/core_rules.rs", "aftermath-core/parser/src/rule_collections/function_rules.rs", "aftermath-core/parser/src/rule_collections/string_rules.rs"]}
{"id": "C97", "title": "On the page, a change within brackets replaces only what is between them", "statement": "A formula is shown. In any of its rows, at any depth, there are round brackets that are not empty, brackets and quotes are closed in the row and in the brackets, and the opening bracket is not inside of quotes. When what is between the brackets is replaced by another row that is not empty and where brackets and quotes are closed, then the new formula can be shown exactly when the new content can be shown by itself. In this case the MathML stays the same, except that in one mrow that consists of the opening bracket, one element and the closing bracket, the element for the old content by itself is replaced by the element for the new content by itself. This also holds after typing characters between brackets in the component, with the timers firing at any moments.", "quantifier": "all formulas that can be shown, all paths to rows, all pairs of brackets, all balanced replacements; for typing all characters, interleavings and positions", "why_tests_cant": "It joins three layers (parser, renderer, component) for any context: that a change of the content changes the nesting, the tags or the error marks elsewhere, shows only for certain neighbours.", "anchors": ["aftermath-core/parser/src/parser/pratt_parser.rs", "aftermath-core/parser/src/rule_collections/core_rules.rs", "aftermath-core/parser/src/rule_collections/function_rules.rs", "src/mathml/renderer.ts", "src/component/math-editor.ts"]}
{"id": "C98", "title": "With the keyboard alone exactly the formulas of characters, roots and one-cell tables can be written", "statement": "In a new component of the production build (without overflow checks), with nothing but arrow keys, Backspace, keys that type one character and the timer that lets typed text take effect, the formulas that can be arrived at are exactly those of symbols of one character, roots and tables of one cell, nested in any way. For each of them there are keys that write it whatever the layout of the page is and whatever exceptions drawing throws, and that leave the caret at the start. In particular autocorrection when the caret leaves a word, which only works at one distance from the start of a row, is enough to write every root and every table that can be written at all.", "quantifier": "all formulas, all sequences of keys, all layouts", "why_tests_cant": "It is an equivalence about what can be reached with arbitrarily many keys: no sample shows that something can not be written, and that every nesting can be written needs a procedure for all of them.", "anchors": ["src/component/math-editor.ts", "aftermath-core/caret/src/math_editor.rs", "aftermath-core/caret/src/autocomplete.rs"]}
{"id": "C99", "title": "Which digits and letters are used does not matter for the structure of a formula", "statement": "In any formula, characters are replaced by others of the same sort: digits by any digits, letters by any letters, where the characters that have a meaning of their own (operators, brackets, quotes, spaces, the decimal point and the letters of lim, limsup and liminf) stay and no other character becomes one of them. Different characters may become the same one. Then the syntax tree of the formula is the old one with these characters replaced: all nodes, their names and their ranges stay, errors included. The formula is shown exactly when it was shown before, and the page is the same with these characters replaced.", "quantifier": "all formulas, all replacements of characters", "why_tests_cant": "The trees of two different formulas are compared for all formulas and for all ways to replace characters; the tests parse single formulas.", "anchors": ["aftermath-core/parser/src/parser/pratt_parser.rs", "aftermath-core/parser/src/math_parser.rs", "aftermath-core/parser/src/rule_collections/core_rules.rs", "aftermath-core/parser/src/rule_collections/arithmetic_rules.rs", "src/mathml/renderer.ts"]}
{"id": "C100", "title": "Undo always takes something back", "statement": "Whenever undo or redo reports success, the formula afterwards is another one than before. In particular a call that leaves the formula as it is adds no step to the undo history, and what was undone can still be redone after it.", "quantifier": "all sequences of calls of the editor", "why_tests_cant": "The histories of all sequences of calls are meant, with every kind of edit and autocorrections in between; the tests undo a few chosen edits and compare with the formula before them.", "anchors": ["aftermath-core/caret/src/primitive/primitive_edit.rs", "aftermath-core/input_tree/src/editing/basic_edit.rs", "aftermath-core/caret/src/math_editor.rs", "aftermath-core/parser/src/rule_collections/calculus_rules.rs", "src/component/math-editor.ts"]}
{"id": "C101", "title": "Pressing Backspace or Delete often enough erases exactly what is on that side in the row", "statement": "Wherever the caret is in a formula, Backspace pressed a certain number of times erases exactly the nodes to its left in its row, and Delete those to its right. The number of presses depends on these nodes only: one for a symbol, and for a container the presses for its cells and for getting in and dissolving it. The rest of the formula stays as it is, no press panics, and in the editor nothing is autocorrected by Backspace meanwhile. To empty a formula no fewer presses do.", "quantifier": "all formulas, all carets in them, both keys, all numbers of nodes, all builds", "why_tests_cant": "Containers may be nested to any depth, and every press depends on the structure that the presses before it left; tests press the key a few times in a few small formulas.", "anchors": ["aftermath-core/caret/src/primitive/primitive_edit.rs", "aftermath-core/caret/src/primitive/caret_edit.rs", "aftermath-core/input_tree/src/editing/basic_edit.rs", "aftermath-core/caret/src/math_editor.rs"]}
{"id": "C102", "title": "Backspace and Delete reach the edge of the formula from anywhere", "statement": "From every caret in every formula, Delete pressed often enough gets to the end of the formula, and exactly the symbols before the caret are left, in their order. Backspace pressed often enough gets to its start in builds without overflow checks, and exactly the symbols behind the caret are left. Delete pressed often enough and then Backspace pressed often enough empties every formula, in every build, without a panic.", "quantifier": "all formulas, all carets in them, all builds", "why_tests_cant": "The caret may be at any depth, and the presses dissolve or pass containers of any kind and any number of cells; tests try single presses.", "anchors": ["aftermath-core/caret/src/primitive/primitive_edit.rs", "aftermath-core/caret/src/primitive/caret_edit.rs", "aftermath-core/input_tree/src/editing/basic_edit.rs", "aftermath-core/caret/src/math_editor.rs"]}
{"id": "C103", "title": "The keyboard alone replaces any formula", "statement": "In the production build, from every formula in the editor and every caret position in it, arrow keys and Backspace empty the formula, and with keys that type one character as well they lead to every formula of single characters, roots and one-cell tables, wherever things are drawn in between. Only if cells of a table are selected, none of these keys gets anywhere: arrow keys change nothing, and all others panic.", "quantifier": "all states of the component, all caret positions, all formulas that the keyboard can write", "why_tests_cant": "The start is any formula that may have been loaded, of any depth, and the goal any formula that can be written; the keys in between run autocorrection at every press. Tests type a few fixed words into an empty editor.", "anchors": ["aftermath-core/caret/src/math_editor.rs", "aftermath-core/caret/src/primitive/primitive_edit.rs", "aftermath-core/caret/src/primitive/movement.rs", "aftermath-core/caret/src/autocomplete.rs", "src/component/math-editor.ts"]}
{"id": "C104", "title": "A click into the box of a cell puts the caret into this cell", "statement": "If the pointer is inside the box of a rendered element and inside the boxes of all elements around it, and in no box of an earlier element beside one of these, then the position given by the click is in the row of this element or in a row inside it.", "quantifier": "every well-formed formula that is rendered (C59), every point, every layout, every element", "why_tests_cant": "The formula has any depth, and the browser reports any boxes. The rows are collected on the way down in two different searches, one for the element under the pointer and one for the closest place inside it; a test looks at one picture.", "anchors": ["src/mathml/render-result.ts", "src/rendering/viewport-coordinate.ts", "src/rendering/render-result.ts"]}
{"id": "C105", "title": "After a click the caret is drawn where the click found it", "statement": "The caret of the position given by a click can be drawn, and its place is the one closest to the pointer that the search found: the same horizontal coordinate, no width and the same baseline.", "quantifier": "every well-formed formula that is rendered (C59), every point, every layout", "why_tests_cant": "The place is found by going down from the element under the pointer, and drawn by going down from the row of the position; that both end in the same element depends on the whole tree and on ties between neighbouring elements.", "anchors": ["src/mathml/render-result.ts", "src/mathml/renderer/rendered-container-element.ts", "src/rendering/viewport-coordinate.ts"]}
{"id": "C106", "title": "How deep the calls of the parser nest", "statement": "While a well-formed row is parsed, at most as many calls of pratt_parse are nested as the row has nodes and cells, and one more. The bound is reached by a row of minus signs. Calls that stay open are made for every minus sign at the start of a row (unless a space or a script follows the last one), for every opening bracket at the start of a row (unless a closing bracket follows the last one), and for every container on the way to a cell: a row with n of them takes more than n nested calls. The terms of a sum do not nest: every sum of two or more infinities takes two nested calls.", "quantifier": "every well-formed row, every number of minus signs and of opening brackets, every path to a cell, every number of terms", "why_tests_cant": "A stack overflows at a depth that depends on the machine; a test shows one row and one depth, not how the depth grows.", "anchors": ["aftermath-core/parser/src/parser/pratt_parser.rs", "aftermath-core/parser/src/math_parser.rs", "aftermath-core/parser/src/rule_collections/built_in_rules.rs"]}
{"id": "C107", "title": "Spaces between tokens have no meaning", "statement": "Spaces are added to or taken away from a formula, in its row or in any cells, at places that are not in a string, not between two characters of names or numbers, and not in empty brackets. Then the syntax tree has errors if and only if it had errors before, and it means the same formula.", "quantifier": "every well-formed formula of single characters, every number of spaces, every such place at any depth", "why_tests_cant": "A space can stand at any place of any formula, and the parser treats spaces in several of its rules.", "anchors": ["aftermath-core/parser/src/parser.rs", "aftermath-core/parser/src/make_parser.rs", "aftermath-core/parser/src/rule_collections/arithmetic_rules.rs", "aftermath-core/parser/src/rule_collections/calculus_rules.rs", "src/mathml/renderer.ts", "aftermath-core/parser/src/parser_extensions.rs"]}
{"id": "C108", "title": "Only other programs can put an ill-formed formula into a page", "statement": "A page is loaded from any documents. Then, after any events of any of its editors, in any order, with any copying, cutting and pasting between them, and with any exceptions and panics, the formula of every editor that still works is well formed (grids have full rows, at least one cell, fractions and roots two cells, scripts one), as long as what other programs put onto the clipboard is. What the clipboard holds is then read as well-formed nodes or rejected. What one editor copies is pasted by another one as the same nodes or rejected, never as other nodes.", "quantifier": "every page with any number of documents, every sequence of events of its editors and of other programs", "why_tests_cant": "All interleavings of the events of any number of editors, and all formulas that can be copied at any time.", "anchors": ["src/main.ts", "src/component/math-editor.ts", "aftermath-core/caret/src/math_editor.rs", "aftermath-core/serialization/src/lib.rs", "aftermath-core/input_tree/src/grid.rs"]}
{"id": "C109", "title": "A formula can be shown exactly if its grids are full", "statement": "Parsing a formula succeeds exactly if every grid in it, at any depth, has a width and full rows; on every other row an assertion fails, and it loops on none; whether a fraction has two cells does not matter to it. Whenever there is a result, the syntax tree covers the row without gaps, has its text, and every row of the formula is found in it (as C44 to C47 state for well-formed rows). A formula read from a MathML document parses exactly if it is well formed. So a document with an empty table always ends the editor that loads it, and pasting nodes with a grid that is not full always ends the editor, in every state. No document can therefore lead to an editor that works with an ill-formed formula.", "quantifier": "every row, every grammar with non-empty tokens and a rule for every container, every document, every pasted text, every reachable state of the component", "why_tests_cant": "All rows at any depth, including ill-formed ones no editor command produces; all documents; all reachable states.", "anchors": ["aftermath-core/parser/src/rule_collections/core_rules.rs", "aftermath-core/parser/src/parser.rs", "aftermath-core/caret/src/math_editor.rs", "aftermath-core/input_tree/src/grid.rs", "src/component/math-editor.ts"]}
{"id": "C110", "title": "A formula in brackets can take the place of a variable", "statement": "A row of single characters means a formula, and in it some letters are variables of their own: not parts of longer names, of strings or of lim, limsup, liminf. All occurrences of these letters, in the row and in all cells at any depth, are replaced at once by rows in brackets, each of which means some formula. Then the syntax tree of the new row has no errors and means the formula with these variables replaced by these formulas, and no other formula. Also where the variable is a function that is applied, has a script, or is an operand of any operator.", "quantifier": "every row that means a formula, every choice of letters and of rows that replace them, every table of Unicode properties in which letters are letters", "why_tests_cant": "All formulas of any size, all contexts of a variable in them, and all formulas put there at once.", "anchors": ["aftermath-core/parser/src/parser/pratt_parser.rs", "aftermath-core/parser/src/rule_collections/core_rules.rs", "aftermath-core/parser/src/rule_collections/function_rules.rs", "aftermath-core/parser/src/math_parser.rs"]}
{"id": "C111", "title": "Formulas without errors have their brackets and quotes closed", "statement": "If the syntax tree of a formula of single characters has no error nodes, then in its row, and in every cell at any depth, all brackets and quotes are closed, and outside of quotes there are only characters that some rule knows. Of two formulas that differ by one bracket outside of quotes, anywhere, one has an error node: so a single bracket added to or deleted from a formula without errors is always reported. What stands in brackets in a formula without errors has a node of its own, whose tree is the one it has alone, and is without errors.", "quantifier": "every well-formed formula of single characters, every cell of it, every place of a bracket, every table of Unicode properties in which letters are letters", "why_tests_cant": "All formulas of any size and depth, and all places where a bracket can be missing or too much.", "anchors": ["aftermath-core/parser/src/parser/pratt_parser.rs", "aftermath-core/parser/src/rule_collections/core_rules.rs", "aftermath-core/parser/src/rule_collections/string_rules.rs", "aftermath-core/parser/src/math_parser.rs"]}
{"id": "C112", "title": "Precedence decides what a formula means, not whether it can be read", "statement": "A formula of single characters is parsed without error nodes exactly if it is made of operands and operators, where any such formula can be the operand of any operator; how tightly the operators bind plays no role. So two formulas without errors joined by any infix operator are a formula without errors, and so is a formula without errors followed by a postfix operator, a script or an argument, without any added brackets. Conversely, at an infix operator that is not a prefix operator too, and that is outside of brackets and quotes and has no script, a formula is without errors exactly if both sides are.", "quantifier": "every well-formed formula of single characters, every operator of the shipped rules, every place of an infix operator, every table of Unicode properties in which letters are letters", "why_tests_cant": "All formulas of any size and all combinations of operators of different precedence on both sides.", "anchors": ["aftermath-core/parser/src/parser/pratt_parser.rs", "aftermath-core/parser/src/math_parser.rs", "aftermath-core/parser/src/rule_collections/arithmetic_rules.rs"]}
{"id": "C113", "title": "A formula is read at its loosest operator", "statement": "Let two formulas of single characters be parsed to trees with certain meanings, and put an infix operator between them. If, outside of brackets and quotes, no operator of the left formula binds less tightly than this operator, and all infix operators of the right formula bind more tightly, then the whole is parsed without error nodes and means exactly this operator applied to the two meanings. So operators of the same level are grouped from left to right, and an equation is always the equality of its two sides if there is no second equality on the right.", "quantifier": "every two well-formed formulas of single characters with a meaning, every infix operator of the shipped rules, every table of Unicode properties in which letters are letters", "why_tests_cant": "All formulas of any size on both sides and all combinations of operators in them.", "anchors": ["aftermath-core/parser/src/parser/pratt_parser.rs", "aftermath-core/parser/src/math_parser.rs", "aftermath-core/parser/src/rule_collections/comparison_rules.rs", "aftermath-core/parser/src/rule_collections/arithmetic_rules.rs"]}
{"id": "C114", "title": "What stands in brackets or in a cell can be replaced by anything with the same meaning", "statement": "Let two formulas of single characters be parsed to trees with the same meaning. If the first one stands in round brackets anywhere in a third formula, in any of its rows and outside of quotes, and is replaced there by the second one, then the third formula is parsed to a tree with the same meanings as before, and with an error node if and only if there was one before. The same holds without brackets if it is a whole cell, such as an exponent or a numerator. Doubling the brackets around anything that is not empty and whose own brackets and quotes are closed changes neither the meanings nor whether there are errors.", "quantifier": "every two formulas with the same meaning, every formula around them, every place in it, every table of Unicode properties in which letters are letters", "why_tests_cant": "All formulas of any size and depth, before and after the replacement, with or without errors elsewhere.", "anchors": ["aftermath-core/parser/src/parser/pratt_parser.rs", "aftermath-core/parser/src/rule_collections/core_rules.rs", "aftermath-core/parser/src/rule_collections/string_rules.rs", "aftermath-core/parser/src/math_parser.rs"]}
{"id": "C115", "title": "Which formulas can be meant, and the shortest way to write each of them", "statement": "The parser gives a meaning to some row of single characters exactly if in this meaning numbers consist of digits with at most one point inside, variables are names, and tables have full rows; every operator can have every operand. If a row means a formula in which every lim has a script, then the row without spaces and with brackets only around operands that bind too loosely for their place is parsed without error nodes and has exactly the same meaning, and no row with this meaning has fewer symbols and elements, counted in all cells.", "quantifier": "every formula, every well-formed row of single characters with this meaning, every table of Unicode properties in which letters are letters", "why_tests_cant": "All formulas of any size and all rows that mean them, of which there are infinitely many for each formula.", "anchors": ["aftermath-core/parser/src/parser/pratt_parser.rs", "aftermath-core/parser/src/rule_collections/core_rules.rs", "aftermath-core/parser/src/rule_collections/calculus_rules.rs", "aftermath-core/parser/src/math_parser.rs"]}
{"id": "C116", "title": "What a sign in front of a formula or behind it applies to", "statement": "A prefix operator put in front of a formula with a meaning applies to the whole formula, if all infix operators outside of brackets and quotes in it bind more tightly than the prefix operator (and no letters follow lim that make it limsup or liminf). A postfix operator, a script, a formula in brackets or empty brackets put behind a formula without operators outside of brackets and quotes apply to the whole formula. Put behind such an operand on the right of an infix operator, they apply to this operand only, whichever operator it is. In all these cases the whole is parsed without error nodes and means exactly this.", "quantifier": "all formulas of single characters with a meaning, all operators of the shipped rules, every table of Unicode properties in which letters are letters", "why_tests_cant": "All formulas of any size, all operators and all combinations of operators in the formulas.", "anchors": ["aftermath-core/parser/src/parser/pratt_parser.rs", "aftermath-core/parser/src/rule_collections/arithmetic_rules.rs", "aftermath-core/parser/src/rule_collections/function_rules.rs", "aftermath-core/parser/src/rule_collections/calculus_rules.rs"]}

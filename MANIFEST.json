{
 "claims": [
  {
   "property": "C01",
   "status": "proved",
   "theorems": [
    "Aftermath.C01_insert",
    "Aftermath.C01_delete",
    "Aftermath.C01_frame",
    "Aftermath.C01_row_edit",
    "Aftermath.C01_invalid_panics"
   ],
   "note": "Row edits of the tree replace exactly the addressed row."
  },
  {
   "property": "C02",
   "status": "proved",
   "theorems": [
    "Aftermath.C02_edits_inverse",
    "Aftermath.C02_inverse_inverse",
    "Aftermath.C02_truth_needed"
   ],
   "note": "Reversed inverted edits restore the tree; the truthfulness hypothesis is shown to be needed."
  },
  {
   "property": "C03",
   "status": "proved",
   "theorems": [
    "Aftermath.C03_rows",
    "Aftermath.C03_columns",
    "Aftermath.C03_tree",
    "Aftermath.C03_only_tables",
    "Aftermath.C03_offsets",
    "Aftermath.C03_table_size"
   ],
   "note": "Cell by cell description of grid insertion and frame in the tree."
  },
  {
   "property": "C04",
   "status": "partial",
   "theorems": [
    "Aftermath.C04_false",
    "Aftermath.C04_grid_delete_panics",
    "Aftermath.C04_undo_of_grid_insert_panics",
    "Aftermath.C04_tree_panics",
    "Aftermath.C04_partial"
   ],
   "note": "The property is false of this commit; its negation is proved, for every matching non-empty grid: the deletion always panics."
  },
  {
   "property": "C05",
   "status": "proved",
   "theorems": [
    "Aftermath.C05_eq_iff",
    "Aftermath.C05_swap",
    "Aftermath.C05_trans",
    "Aftermath.C05_le_total_order"
   ],
   "note": "Comparison of positions is a total order."
  },
  {
   "property": "C06",
   "status": "proved",
   "theorems": [
    "Aftermath.C06_sorted",
    "Aftermath.C06_mem",
    "Aftermath.C06_nodup",
    "Aftermath.C06_cmp_index"
   ],
   "note": "Reading order enumeration is strictly increasing and lists exactly the valid positions."
  },
  {
   "property": "C07",
   "status": "proved",
   "theorems": [
    "Aftermath.C07_right_is_next",
    "Aftermath.C07_right_visits_all",
    "Aftermath.C07_reaches"
   ],
   "note": "n presses of Right lead to the n-th position in reading order, for every n, tree and build profile."
  },
  {
   "property": "C08",
   "status": "proved",
   "theorems": [
    "Aftermath.C08_right_left",
    "Aftermath.C08_left_right"
   ],
   "note": "Both directions, with the exact condition for the overflow panic of checked builds."
  },
  {
   "property": "C09",
   "status": "proved",
   "theorems": [
    "Aftermath.C09_arrow_keys",
    "Aftermath.C09_release",
    "Aftermath.C09_word_line"
   ],
   "note": "All four keys from any valid caret; the only panic is characterised exactly."
  },
  {
   "property": "C10",
   "status": "proved",
   "theorems": [
    "Aftermath.C10_script_exit",
    "Aftermath.C10_up",
    "Aftermath.C10_down",
    "Aftermath.C10_enclosing",
    "Aftermath.C10_root",
    "Aftermath.C10_up_down"
   ],
   "note": "Up and Down by table coordinates."
  },
  {
   "property": "C100",
   "status": "partial",
   "theorems": [
    "Aftermath.C100_partial",
    "Aftermath.C100_step_partial",
    "Aftermath.C100_cut",
    "Aftermath.C100_same",
    "Aftermath.C100_echo",
    "Aftermath.C100_cut_event",
    "Aftermath.C100_shipped"
   ],
   "note": "The property is false: cutting with nothing selected (C100_cut, C100_cut_event), writing what is selected (C100_same) and leaving a word whose rule writes the same word (C100_echo; limsup, liminf and lim by C100_shipped) are recorded although they change nothing, and take away what could be redone. C100_partial and C100_step_partial prove it for all runs without such calls."
  },
  {
   "property": "C101",
   "status": "proved",
   "theorems": [
    "Aftermath.C101",
    "Aftermath.C101_all",
    "Aftermath.C101_exact",
    "Aftermath.C101_editor",
    "Aftermath.C101_editor_all"
   ],
   "note": "The presses per node are counted by a recursion in Spec/Erase.lean. C101_exact (no fewer presses) is for builds with overflow checks. The editor theorems are for Backspace, since Delete can move the caret out of a word and so correct it."
  },
  {
   "property": "C102",
   "status": "proved",
   "theorems": [
    "Aftermath.C102_split",
    "Aftermath.C102_backspace",
    "Aftermath.C102_delete",
    "Aftermath.C102_empty",
    "Aftermath.C102_editor"
   ],
   "note": "What is before and behind a caret is defined in Spec/EraseAll.lean and is everything by C102_split. Backspace is for builds without overflow checks; with them it panics at the first filled cell of a container (C33)."
  },
  {
   "property": "C103",
   "status": "proved",
   "theorems": [
    "Aftermath.C103_empty",
    "Aftermath.C103",
    "Aftermath.C103_grid"
   ],
   "note": "For builds without overflow checks; with them Left and Backspace panic at the start of the first cell of a container (C04, C33). The formula has to be well formed, with grids that fit the index type, and without empty symbols."
  },
  {
   "property": "C104",
   "status": "partial",
   "theorems": [
    "Aftermath.C104_partial"
   ],
   "note": "For the formulas of C59_partial; for the excluded ones a click into a cell can give a position that does not exist (C59_not). That no earlier element beside covers the pointer is a condition of the property: an example shows that otherwise the earlier one is taken."
  },
  {
   "property": "C105",
   "status": "partial",
   "theorems": [
    "Aftermath.C105_partial",
    "Aftermath.C105_not"
   ],
   "note": "Proved if the place is not the start of an element inside a row, for the formulas of C59_partial. At the start of an element inside a row it is false (C105_not): the row draws the caret at the end of the element before, on the other side of any gap."
  },
  {
   "property": "C106",
   "status": "proved",
   "theorems": [
    "Aftermath.C106",
    "Aftermath.C106_minus",
    "Aftermath.C106_open",
    "Aftermath.C106_cells",
    "Aftermath.C106_reached",
    "Aftermath.C106_sum"
   ],
   "note": "The depth is the bound of the recursion from which on the row is parsed. The sums of C106_sum consist of the symbols for infinity; whether the stack of the machine is large enough is not modelled."
  },
  {
   "property": "C107",
   "status": "proved",
   "theorems": [
    "Aftermath.C107",
    "Aftermath.C107_written"
   ],
   "note": "The excluded places are needed, see the examples: a space in a number or in empty brackets gives an error, a space in the sign of an operator another operator."
  },
  {
   "property": "C108",
   "status": "proved",
   "theorems": [
    "Aftermath.C108",
    "Aftermath.C108_paste",
    "Aftermath.C37_same"
   ],
   "note": "In a build with overflow checks, as C76. Ill-formed data of other programs are excluded (C39). Documents with an empty table end the editor (C109)."
  },
  {
   "property": "C109",
   "status": "proved",
   "theorems": [
    "Aftermath.C109",
    "Aftermath.C109_panics",
    "Aftermath.C109_tree",
    "Aftermath.C109_mathml",
    "Aftermath.C109_import",
    "Aftermath.C109_paste",
    "Aftermath.C109_proper"
   ],
   "note": "C109_import and C109_paste are about the states of C76; C109_proper extends those states to all documents, in a build with overflow checks."
  },
  {
   "property": "C11",
   "status": "proved",
   "theorems": [
    "Aftermath.C11_span"
   ],
   "note": "Deepest common row, coverage, direction and minimality."
  },
  {
   "property": "C110",
   "status": "proved",
   "theorems": [
    "Aftermath.C110",
    "Aftermath.C110_written",
    "Aftermath.C110_shown"
   ],
   "note": "Only variables with a name of one letter are replaced."
  },
  {
   "property": "C111",
   "status": "proved",
   "theorems": [
    "Aftermath.C111",
    "Aftermath.C111_written",
    "Aftermath.C111_bracket",
    "Aftermath.C111_contents"
   ],
   "note": "For symbols that are single characters, as C78."
  },
  {
   "property": "C112",
   "status": "proved",
   "theorems": [
    "Aftermath.C112",
    "Aftermath.C112_written",
    "Aftermath.C112_join",
    "Aftermath.C112_split",
    "Aftermath.C112_scripts",
    "Aftermath.C112_shown"
   ],
   "note": "For symbols that are single characters, as C78."
  },
  {
   "property": "C113",
   "status": "proved",
   "theorems": [
    "Aftermath.C113",
    "Aftermath.C113_written",
    "Aftermath.C113_equals"
   ],
   "note": "For symbols that are single characters, as C78. C113_written is for operators with scripts too."
  },
  {
   "property": "C114",
   "status": "proved",
   "theorems": [
    "Aftermath.C114",
    "Aftermath.C114_written",
    "Aftermath.C114_cell",
    "Aftermath.C114_brackets",
    "Aftermath.C114_doubled"
   ],
   "note": "For symbols that are single characters, as C78."
  },
  {
   "property": "C115",
   "status": "proved",
   "theorems": [
    "Aftermath.C115",
    "Aftermath.C115_meant",
    "Aftermath.C115_written"
   ],
   "note": "For symbols that are single characters, as C78. The example after the theorems shows why lim without scripts is excepted: a space can be shorter than brackets."
  },
  {
   "property": "C116",
   "status": "proved",
   "theorems": [
    "Aftermath.C116",
    "Aftermath.C116_prefix",
    "Aftermath.C116_postfix",
    "Aftermath.C116_operand"
   ],
   "note": "For symbols that are single characters, as C78."
  },
  {
   "property": "C12",
   "status": "proved",
   "theorems": [
    "Aftermath.C12_selection",
    "Aftermath.C12_interval"
   ],
   "note": "Grid selection exactly for two different cells of one table, otherwise the row range of C11."
  },
  {
   "property": "C13",
   "status": "partial",
   "theorems": [
    "Aftermath.C13_false",
    "Aftermath.C13_view_size_false",
    "Aftermath.C13_corners_partial",
    "Aftermath.C13_view_size_partial",
    "Aftermath.C13_indices",
    "Aftermath.C13_empty",
    "Aftermath.C13_view_cells"
   ],
   "note": "False of this commit (negations proved); the partial theorems give the exact conditions under which corners and view size are right."
  },
  {
   "property": "C14",
   "status": "proved",
   "theorems": [
    "Aftermath.C14_walk_down",
    "Aftermath.C14_walk_down_invalid",
    "Aftermath.C14_navigation",
    "Aftermath.C14_child_parent",
    "Aftermath.C14_parent_child",
    "Aftermath.C14_position_roundtrip",
    "Aftermath.C14_position_roundtrip'",
    "Aftermath.C14_range_roundtrip",
    "Aftermath.C14_range_roundtrip'",
    "Aftermath.C14_grid_roundtrip",
    "Aftermath.C14_grid_roundtrip'"
   ],
   "note": "Every focus reached by navigation is the walk-down of its indices."
  },
  {
   "property": "C15",
   "status": "proved",
   "theorems": [
    "Aftermath.C15_delete_selection"
   ],
   "note": "Any removal mode, any non-empty row selection."
  },
  {
   "property": "C16",
   "status": "proved",
   "theorems": [
    "Aftermath.C16_delete_key",
    "Aftermath.C16_at_most_one_symbol"
   ],
   "note": "Exact classification of Backspace and Delete for every caret, with the exact panic condition of checked builds."
  },
  {
   "property": "C17",
   "status": "proved",
   "theorems": [
    "Aftermath.C17_valid_after_delete"
   ],
   "note": "Validity after every removal; the panic condition of checked builds is characterised."
  },
  {
   "property": "C18",
   "status": "proved",
   "theorems": [
    "Aftermath.C18_insert_nodes",
    "Aftermath.C18_type"
   ],
   "note": "Insertion of nodes and symbols."
  },
  {
   "property": "C19",
   "status": "proved",
   "theorems": [
    "Aftermath.C19_type_backspace",
    "Aftermath.C19_one"
   ],
   "note": "n symbols, n times Backspace."
  },
  {
   "property": "C20",
   "status": "proved",
   "theorems": [
    "Aftermath.C20_history",
    "Aftermath.C20_undo_redo"
   ],
   "note": "Every run of editor operations refines a history with a cursor."
  },
  {
   "property": "C21",
   "status": "proved",
   "theorems": [
    "Aftermath.C21_undo_redo",
    "Aftermath.C21_redo_undo",
    "Aftermath.C21_undo_insert"
   ],
   "note": "Every reachable editor."
  },
  {
   "property": "C22",
   "status": "proved",
   "theorems": [
    "Aftermath.C22_undo_all"
   ],
   "note": "Every reachable editor, any number of steps."
  },
  {
   "property": "C23",
   "status": "proved",
   "theorems": [
    "Aftermath.C23_manager",
    "Aftermath.C23_lifo"
   ],
   "note": "Refinement of the undo manager to a list with a cursor."
  },
  {
   "property": "C24",
   "status": "proved",
   "theorems": [
    "Aftermath.C24_fresh"
   ],
   "note": "Every reachable editor."
  },
  {
   "property": "C25",
   "status": "proved",
   "theorems": [
    "Aftermath.C25_queries",
    "Aftermath.C25_moves",
    "Aftermath.C25_moves_no_token"
   ],
   "note": "Queries never change the formula; moves only by an autocorrection."
  },
  {
   "property": "C26",
   "status": "partial",
   "theorems": [
    "Aftermath.C26_calm_partial",
    "Aftermath.C26_not"
   ],
   "note": "False of the code (witness: accepting a completion leaves the caret at offset 8 of a row of length 1). Proved: formula and caret are valid in every run with valid arguments in which each replacement of a token and each direct splice leaves the caret valid. C63 is about the formula alone and needs no such condition."
  },
  {
   "property": "C27",
   "status": "partial",
   "theorems": [
    "Aftermath.C27_history_partial",
    "Aftermath.C27_exact_partial",
    "Aftermath.C27_splice",
    "Aftermath.C71_panics",
    "Aftermath.C71_panics_other",
    "Aftermath.C74",
    "Aftermath.C27_not"
   ],
   "note": "False of the code: ten independent panicking call sequences. Proved: undo, redo, select_all, finish_selection never panic in reachable states; in calm states the panicking calls are exactly those of Op.Panics, of C27_splice and, with a completed token left of the caret, of LeavePanics; C74 has the exact panics in all states."
  },
  {
   "property": "C28",
   "status": "proved",
   "theorems": [
    "Aftermath.C28_insert",
    "Aftermath.C28_delete"
   ],
   "note": "Every range, forwards or backwards, every edit of its row."
  },
  {
   "property": "C29",
   "status": "partial",
   "theorems": [
    "Aftermath.C29_not",
    "Aftermath.C29_root_panics",
    "Aftermath.C29_insert_partial",
    "Aftermath.C29_delete_partial",
    "Aftermath.C29_unrelated_partial"
   ],
   "note": "False of this commit: tracking through edits of the root row panics. The exact condition under which other enclosing rows are handled correctly is proved."
  },
  {
   "property": "C30",
   "status": "proved",
   "theorems": [
    "Aftermath.C30_sound",
    "Aftermath.C30_ascii"
   ],
   "note": "Every rule, row, offset; the reported length and completeness for single ASCII characters."
  },
  {
   "property": "C31",
   "status": "proved",
   "theorems": [
    "Aftermath.C31_complete",
    "Aftermath.C31_empty_panics"
   ],
   "note": "Every ASCII rule and every row without empty symbols; empty symbols panic."
  },
  {
   "property": "C32",
   "status": "proved",
   "theorems": [
    "Aftermath.C32_open",
    "Aftermath.C32_move",
    "Aftermath.C32_stays",
    "Aftermath.C32_stays_exact",
    "Aftermath.C32_stuck"
   ],
   "note": "Every editor and list; with two matches of one rule moving down gets stuck (C32_stuck)."
  },
  {
   "property": "C33",
   "status": "partial",
   "theorems": [
    "Aftermath.C33_reports",
    "Aftermath.C33_release_partial",
    "Aftermath.C33_root_edge",
    "Aftermath.C33_dev_panics"
   ],
   "note": "False for the shipped dev build: the keys panic for every formula. Proved for release builds."
  },
  {
   "property": "C34",
   "status": "proved",
   "theorems": [
    "Aftermath.C34_accept"
   ],
   "note": "Every editor with a well-formed formula."
  },
  {
   "property": "C35",
   "status": "partial",
   "theorems": [
    "Aftermath.C35_fires_partial",
    "Aftermath.C35_too_early",
    "Aftermath.C35_panics",
    "Aftermath.C35_not"
   ],
   "note": "False of this commit. The exact behaviour for each token offset is proved."
  },
  {
   "property": "C36",
   "status": "proved",
   "theorems": [
    "Aftermath.C36_type",
    "Aftermath.C36_type_total",
    "Aftermath.C36_paste"
   ],
   "note": "Every well-formed formula and row selection; pasted nodes well formed."
  },
  {
   "property": "C37",
   "status": "partial",
   "theorems": [
    "Aftermath.C37_roundtrip_partial",
    "Aftermath.C37_too_deep",
    "Aftermath.C37_injective",
    "Aftermath.C37_same",
    "Aftermath.C37_not"
   ],
   "note": "False of this commit for 21 or more nested containers (serde_json recursion limit). Exact for well-formed nodes: read back iff at most 20 nested containers. Injectivity proved without restriction, and that the text is never read as other nodes (C37_same)."
  },
  {
   "property": "C38",
   "status": "partial",
   "theorems": [
    "Aftermath.C38_copy_paste_partial",
    "Aftermath.C38_cut_paste_partial",
    "Aftermath.C38_cut_loses"
   ],
   "note": "Proved for at most 20 nested containers in the selection; beyond that cut and paste loses the nodes (C38_cut_loses)."
  },
  {
   "property": "C39",
   "status": "partial",
   "theorems": [
    "Aftermath.C39_own_text_partial",
    "Aftermath.C39_widths_partial",
    "Aftermath.C39_any_shape",
    "Aftermath.C39_not"
   ],
   "note": "False of this commit: every shape with usize widths is accepted and a later key panics. Proved for texts written by copy."
  },
  {
   "property": "C40",
   "status": "proved",
   "theorems": [
    "Aftermath.C40",
    "Aftermath.C40_total",
    "Aftermath.C40_wf"
   ],
   "note": "C40_total: printing works exactly when all widths are positive (division by zero otherwise)."
  },
  {
   "property": "C41",
   "status": "proved",
   "theorems": [
    "Aftermath.C41",
    "Aftermath.C41_stable",
    "Aftermath.C41_bound_needed",
    "Aftermath.C41_path"
   ],
   "note": "NameMap with the wrapping u32 counter; for up to 2^32 distinct names; the bound is shown to be necessary."
  },
  {
   "property": "C42",
   "status": "proved",
   "theorems": [
    "Aftermath.C42_roundtrip",
    "Aftermath.C42_addressable",
    "Aftermath.C42_other_width",
    "Aftermath.C42_get",
    "Aftermath.C42_set",
    "Aftermath.C42_table"
   ],
   "note": "Index arithmetic of grids."
  },
  {
   "property": "C43",
   "status": "proved",
   "theorems": [
    "Aftermath.C43",
    "Aftermath.C43_parse",
    "Aftermath.C43_shipped"
   ],
   "note": "For every rule set without empty symbol sequences in which each container kind is parsed by some rule; C43_shipped is the instance for the shipped collections. The chumsky combinators are taken with PEG semantics; termination is a bound on the recursion depth beyond which the result is constant."
  },
  {
   "property": "C44",
   "status": "proved",
   "theorems": [
    "Aftermath.C44"
   ],
   "note": ""
  },
  {
   "property": "C45",
   "status": "proved",
   "theorems": [
    "Aftermath.C45"
   ],
   "note": "Shaped is the specification, in Spec/Syntax.lean."
  },
  {
   "property": "C46",
   "status": "proved",
   "theorems": [
    "Aftermath.C46"
   ],
   "note": "SNode.text and rowText are separate readings of tree and row, in Spec/Syntax.lean."
  },
  {
   "property": "C47",
   "status": "proved",
   "theorems": [
    "Aftermath.C47"
   ],
   "note": "The walk is getNodeWithRowIndices of src/core/index.ts."
  },
  {
   "property": "C48",
   "status": "proved",
   "theorems": [
    "Aftermath.C48",
    "Aftermath.C48_tree",
    "Aftermath.C48_brackets",
    "Aftermath.C48_flat",
    "Aftermath.C48_left_chain",
    "Aftermath.C48_right_chain",
    "Aftermath.C48_prefix"
   ],
   "note": "For every rule set meeting Good and every row that reads as an operator expression (Reads, Spec/Expression.lean): the tree is the unique one with the same tokens that is nested by binding powers. C48_flat, C48_left_chain, C48_right_chain and C48_prefix spell out flat chains, chains of equal power and prefix operators."
  },
  {
   "property": "C49",
   "status": "proved",
   "theorems": [
    "Aftermath.C49",
    "Aftermath.C49_found",
    "Aftermath.C49_atom"
   ],
   "note": "Chosen says that the rule is the last one registered, of its role, that parses at this position. C48 shows that the tree is made of the chosen rules."
  },
  {
   "property": "C50",
   "status": "proved",
   "theorems": [
    "Aftermath.C50_empty",
    "Aftermath.C50",
    "Aftermath.C50_shipped"
   ],
   "note": "An equivalence. Hypothesis ErrorsApart: no rule has the name of an error node; proved for the shipped rules (createParser_apart)."
  },
  {
   "property": "C51",
   "status": "proved",
   "theorems": [
    "Aftermath.C51_move",
    "Aftermath.C51_shift",
    "Aftermath.C51_start",
    "Aftermath.C51_extend",
    "Aftermath.C51_select_all"
   ],
   "note": "About calls that return; C26 and C27 say when they do. C51_shift and C51_select_all ask for a well-formed formula."
  },
  {
   "property": "C52",
   "status": "proved",
   "theorems": [
    "Aftermath.C52",
    "Aftermath.C52_shipped"
   ],
   "note": "Hypotheses on the name map: names without separators and no name with two ids; proved for the shipped rules."
  },
  {
   "property": "C53",
   "status": "proved",
   "theorems": [
    "Aftermath.C53",
    "Aftermath.C53_shipped"
   ],
   "note": ""
  },
  {
   "property": "C54",
   "status": "proved",
   "theorems": [
    "Aftermath.C54_throws",
    "Aftermath.C54_errors",
    "Aftermath.C54_wf",
    "Aftermath.C54_wf_iff",
    "Aftermath.C54_not"
   ],
   "note": "C54_not: some documents throw, and an empty mtable is read without error into a formula that is not well formed."
  },
  {
   "property": "C55",
   "status": "proved",
   "theorems": [
    "Aftermath.C55",
    "Aftermath.C55_exists",
    "Aftermath.C55_unique"
   ],
   "note": ""
  },
  {
   "property": "C56",
   "status": "partial",
   "theorems": [
    "Aftermath.C56_set_partial",
    "Aftermath.C56_caret",
    "Aftermath.C56_tree",
    "Aftermath.C56_nested_panics",
    "Aftermath.C56_empty_table_panics",
    "Aftermath.C56_caret_lost"
   ],
   "note": "Holds while the caret is in the outermost row. The program panics when the caret is in a cell (C56_nested_panics), keeps a caret beyond the end of a shorter formula (C56_caret_lost), and cannot parse an empty mtable (C56_empty_table_panics)."
  },
  {
   "property": "C57",
   "status": "partial",
   "theorems": [
    "Aftermath.C57_setup",
    "Aftermath.C57_made",
    "Aftermath.C57_makes",
    "Aftermath.C57_two",
    "Aftermath.C57_partial",
    "Aftermath.C57_row_partial",
    "Aftermath.C57_clean",
    "Aftermath.C57_throws",
    "Aftermath.C57_not"
   ],
   "note": "False of this commit: a space after a script makes the renderer throw, for every formula (C57_throws). The exact condition on the tree (C57_partial), the exact condition on a formula without errors (C57_clean) and a sufficient one on any formula (C57_row_partial) are proved. For any map of names, C57_made says exactly when the renderer can be made and C57_makes what it then has. For any tree, fractions, roots and scripts that are shown have two parts (C57_two)."
  },
  {
   "property": "C58",
   "status": "proved",
   "theorems": [
    "Aftermath.C58_row",
    "Aftermath.C58_position",
    "Aftermath.C58_draw",
    "Aftermath.C58_calm"
   ],
   "note": ""
  },
  {
   "property": "C59",
   "status": "partial",
   "theorems": [
    "Aftermath.C59_partial",
    "Aftermath.C59_row_partial",
    "Aftermath.C59_drawn_partial",
    "Aftermath.C59_not"
   ],
   "note": "False of this commit for formulas in which a cell is just a base with a script (C59_not); proved for all others."
  },
  {
   "property": "C60",
   "status": "partial",
   "theorems": [
    "Aftermath.C60_start",
    "Aftermath.C60_nearest_partial",
    "Aftermath.C60_exact_partial",
    "Aftermath.C60_row_partial"
   ],
   "note": "C60_start holds always. The others are for the formulas of C59_partial; for the excluded ones the result need not be a position at all."
  },
  {
   "property": "C61",
   "status": "partial",
   "theorems": [
    "Aftermath.C61_redraws",
    "Aftermath.C61_partial",
    "Aftermath.C61_selects",
    "Aftermath.C61_new",
    "Aftermath.C61_editor",
    "Aftermath.C61_not"
   ],
   "note": "False of this commit (C61_not: a drag from behind `sum` leaves the old formula on the screen). Proved for every event except a selection with the pointer that replaces a token."
  },
  {
   "property": "C62",
   "status": "partial",
   "theorems": [
    "Aftermath.C62_call_partial",
    "Aftermath.C62_arrow_partial",
    "Aftermath.C62_key",
    "Aftermath.C62_history_partial",
    "Aftermath.C62_type_partial",
    "Aftermath.C62_delete_partial",
    "Aftermath.C62_cut_partial",
    "Aftermath.C62_paste_partial",
    "Aftermath.C62_click_partial",
    "Aftermath.C62_select_partial",
    "Aftermath.C62_set_partial",
    "Aftermath.C62_new",
    "Aftermath.C62_calm",
    "Aftermath.C62_not"
   ],
   "note": "That no event throws is false (C62_not). Exact conditions in states where no token is about to be replaced (Component.Calm); C62_calm chains them. C73 has the states behind a token, attribute changes with the caret in a cell, and clicks with scripts in cells."
  },
  {
   "property": "C63",
   "status": "proved",
   "theorems": [
    "Aftermath.C63_formed",
    "Aftermath.C63_run",
    "Aftermath.C63_copy"
   ],
   "note": "For runs whose formula fits the address space (automatic without release overflow: C63_run)."
  },
  {
   "property": "C64",
   "status": "proved",
   "theorems": [
    "Aftermath.C64_queue",
    "Aftermath.C64_others",
    "Aftermath.C64_timer",
    "Aftermath.C64_left",
    "Aftermath.C64_typing",
    "Aftermath.C64_not"
   ],
   "note": "C64_not: with a key between the text and its timer the order is lost."
  },
  {
   "property": "C65",
   "status": "proved",
   "theorems": [
    "Aftermath.C65_drag",
    "Aftermath.C65_idle",
    "Aftermath.C65_flag",
    "Aftermath.C65_double",
    "Aftermath.C65_not"
   ],
   "note": "C65_drag is about events that do not throw (C62 says when they do). C65_double and C65_not are the two things that one would not expect."
  },
  {
   "property": "C66",
   "status": "partial",
   "theorems": [
    "Aftermath.C66_fine",
    "Aftermath.C66_editor",
    "Aftermath.C66_keeps",
    "Aftermath.C66_recover",
    "Aftermath.C66_call_partial",
    "Aftermath.C66_undo",
    "Aftermath.C66_not"
   ],
   "note": "That exceptions are harmless is false (C66_not). C66_call_partial and C66_undo are for states where no token is about to be replaced; C73_call has the other ones."
  },
  {
   "property": "C67",
   "status": "proved",
   "theorems": [
    "Aftermath.C67_signs",
    "Aftermath.C67_same",
    "Aftermath.C67_tokens",
    "Aftermath.C67_marks",
    "Aftermath.C67_clean"
   ],
   "note": "C67_same needs symbols of one character: the page has no mark between symbols of one token."
  },
  {
   "property": "C68",
   "status": "proved",
   "theorems": [
    "Aftermath.C68_swap",
    "Aftermath.C68_caret",
    "Aftermath.C68_span",
    "Aftermath.C68_extent",
    "Aftermath.C68_place",
    "Aftermath.C68_first"
   ],
   "note": "C68_span assumes LeftToRight of what the browser reports; the others assume nothing about it."
  },
  {
   "property": "C69",
   "status": "proved",
   "theorems": [
    "Aftermath.C69",
    "Aftermath.C69_few_brackets",
    "Aftermath.C69_unambiguous"
   ],
   "note": "The levels are those of the shipped rules; see DESIGN.md for where they are not the usual ones."
  },
  {
   "property": "C70",
   "status": "proved",
   "theorems": [
    "Aftermath.C70_reads",
    "Aftermath.C70_unique",
    "Aftermath.C70_unambiguous",
    "Aftermath.C70_paste_same",
    "Aftermath.C70_paste_refused",
    "Aftermath.C70_refused_only",
    "Aftermath.C70_copied",
    "Aftermath.C70_text",
    "Aftermath.C70_copied_text"
   ],
   "note": "How deep: see Describes in Spec/JsonText; the limit is that of serde_json. C70_paste_refused assumes that computing the autocompletions does not panic (C27)."
  },
  {
   "property": "C71",
   "status": "proved",
   "theorems": [
    "Aftermath.C71_unrelated",
    "Aftermath.C71_same",
    "Aftermath.C71_cases",
    "Aftermath.C71_move",
    "Aftermath.C71_edit",
    "Aftermath.C71_dissolve",
    "Aftermath.C71_panics",
    "Aftermath.C71_panics_other"
   ],
   "note": "Left open as stated: LosesToken. GoodNodes: pasted nodes are well-formed and fit."
  },
  {
   "property": "C72",
   "status": "proved",
   "theorems": [
    "Aftermath.C72",
    "Aftermath.C72_tree",
    "Aftermath.C72_brackets",
    "Aftermath.C72_shipped",
    "Aftermath.C72_side_by_side",
    "Aftermath.C72_forgotten"
   ],
   "note": "C48 for all rows, with the errors. C72_tree: a nested tree over the reading is what is returned."
  },
  {
   "property": "C73",
   "status": "proved",
   "theorems": [
    "Aftermath.C73_panics",
    "Aftermath.C73_right",
    "Aftermath.C73_show",
    "Aftermath.C73_call",
    "Aftermath.C73_ends",
    "Aftermath.C73_set",
    "Aftermath.C73_click",
    "Aftermath.C73_lost"
   ],
   "note": "C73_call, C73_show and C73_set also for states in which the caret is lost; C73_panics and C73_ends for the others and outside of LosesToken (C74 has those). C73_lost: the Right key ends the editor."
  },
  {
   "property": "C74",
   "status": "proved",
   "theorems": [
    "Aftermath.C74",
    "Aftermath.C74_tokens",
    "Aftermath.C74_lost",
    "Aftermath.C74_stuck",
    "Aftermath.C74_select_all"
   ],
   "note": "C74 has no condition on the caret, the symbols or the positions passed; rules consist of ASCII characters, pasted nodes are well-formed. C74_tokens says it in simpler words for symbols of one character."
  },
  {
   "property": "C75",
   "status": "proved",
   "theorems": [
    "Aftermath.C75_list",
    "Aftermath.C75_completed",
    "Aftermath.C75_word",
    "Aftermath.C75_typed",
    "Aftermath.C75_shipped",
    "Aftermath.C75_shipped_kept",
    "Aftermath.C75_typed_shipped",
    "Aftermath.C75_accept",
    "Aftermath.C75_completions"
   ],
   "note": "C75_shipped, C75_shipped_kept, C75_typed_shipped and C75_completions are for the rules that are shipped: a table of 15 rules evaluated by decide, for all formulas, texts and states."
  },
  {
   "property": "C76",
   "status": "proved",
   "theorems": [
    "Aftermath.C76",
    "Aftermath.C76_shown",
    "Aftermath.C76_proper",
    "Aftermath.C76_stale"
   ],
   "note": "Builds without overflow checks: as long as the formula fits into memory."
  },
  {
   "property": "C77",
   "status": "proved",
   "theorems": [
    "Aftermath.C77_typed",
    "Aftermath.C77_type",
    "Aftermath.C77_load",
    "Aftermath.C77_session",
    "Aftermath.C77_few_brackets"
   ],
   "note": "The browser splits a string of one character into that character. When a document is loaded, the caret must be in no element and be a place of the new formula (else see C73)."
  },
  {
   "property": "C78",
   "status": "proved",
   "theorems": [
    "Aftermath.C78",
    "Aftermath.C78_shown"
   ],
   "note": "The shipped rules, a table of letters with the usual properties (Xid.Usual). Symbols of several characters (grapheme clusters) are outside of the notation."
  },
  {
   "property": "C79",
   "status": "proved",
   "theorems": [
    "Aftermath.C79",
    "Aftermath.C79_depth",
    "Aftermath.C79_brackets",
    "Aftermath.C79_scripts",
    "Aftermath.C79_bound",
    "Aftermath.C79_counted",
    "Aftermath.C79_free",
    "Aftermath.C79_points"
   ],
   "note": "The effort is defined beside the model of the parser, function by function (Model/Effort); C79_counted says that it is the number of calls counted in a run of the parser as it is written with combinators. C79 is the upper bound for clean rows, C79_free the same for rows with errors but without brackets, C79_bound the one for all rows; C79_brackets, C79_points and C79_scripts show that the hypotheses are needed; C79_depth shows that the bound of the depth of recursion plays no role."
  },
  {
   "property": "C80",
   "status": "proved",
   "theorems": [
    "Aftermath.C80_caret",
    "Aftermath.C80_row",
    "Aftermath.C80_line",
    "Aftermath.C80_grid",
    "Aftermath.C80_rectangle",
    "Aftermath.C80_table",
    "Aftermath.C80_component",
    "Aftermath.C80_centred"
   ],
   "note": "Model/Picture extends the model of drawing (which only said whether it throws) by the styles that are set; Spec/Picture says where the browser puts elements with these styles. C80_centred is the case in which selected cells stick out."
  },
  {
   "property": "C81",
   "status": "proved",
   "theorems": [
    "Aftermath.C81_tree",
    "Aftermath.C81_shown",
    "Aftermath.C81_page",
    "Aftermath.C81_part",
    "Aftermath.C81_rows",
    "Aftermath.C81_typed"
   ],
   "note": "C81_tree is about every grammar that is well-formed, the others about the grammar and the renderers that are shipped."
  },
  {
   "property": "C82",
   "status": "proved",
   "theorems": [
    "Aftermath.C82_alone",
    "Aftermath.C82_paste",
    "Aftermath.C82_clipboard",
    "Aftermath.C82_load",
    "Aftermath.C82_undo"
   ],
   "note": "Formulas inside of formulas are not modelled. C82_paste: at most 20 containers are nested in what is copied (C37), and asking for completions does not panic."
  },
  {
   "property": "C83",
   "status": "partial",
   "theorems": [
    "Aftermath.C83_move_partial",
    "Aftermath.C83_not"
   ],
   "note": "False: connectedCallback sets the formula of the attribute again, so everything that was edited is lost, and the editor ends if the caret is in an element or behind the end of that formula. C83_move_partial says exactly what happens. Missing: that the formula is kept."
  },
  {
   "property": "C84",
   "status": "proved",
   "theorems": [
    "Aftermath.C84",
    "Aftermath.C84_nodes",
    "Aftermath.C84_keeps",
    "Aftermath.C84_component"
   ],
   "note": "The texts of inserted symbols are those of any set that has all single characters and not the empty text. With empty symbols, which the frontend never inserts, a fraction can be made."
  },
  {
   "property": "C85",
   "status": "proved",
   "theorems": [
    "Aftermath.C85",
    "Aftermath.C85_component",
    "Aftermath.C85_select",
    "Aftermath.C85_trap"
   ],
   "note": "The component has no key for select_with_caret or select_all (disagreement 29); C85_select is about the calls."
  },
  {
   "property": "C86",
   "status": "proved",
   "theorems": [
    "Aftermath.C86",
    "Aftermath.C86_sharp",
    "Aftermath.C86_clean",
    "Aftermath.C86_page"
   ],
   "note": ""
  },
  {
   "property": "C87",
   "status": "proved",
   "theorems": [
    "Aftermath.C87_name",
    "Aftermath.C87_number",
    "Aftermath.C87_string",
    "Aftermath.C87_empty"
   ],
   "note": ""
  },
  {
   "property": "C88",
   "status": "proved",
   "theorems": [
    "Aftermath.C88",
    "Aftermath.C88_order",
    "Aftermath.C88_more",
    "Aftermath.C88_lim"
   ],
   "note": "C88_lim shows by a witness that the exception about lim is needed."
  },
  {
   "property": "C89",
   "status": "proved",
   "theorems": [
    "Aftermath.C89_history",
    "Aftermath.C89_survives",
    "Aftermath.C89_typed",
    "Aftermath.C89_back",
    "Aftermath.C89_return",
    "Aftermath.C89_formulas"
   ],
   "note": ""
  },
  {
   "property": "C90",
   "status": "proved",
   "theorems": [
    "Aftermath.C90",
    "Aftermath.C90_loads",
    "Aftermath.C90_error"
   ],
   "note": ""
  },
  {
   "property": "C91",
   "status": "proved",
   "theorems": [
    "Aftermath.C91_search",
    "Aftermath.C91_remove",
    "Aftermath.C91_take",
    "Aftermath.C91_range",
    "Aftermath.C91_zip",
    "Aftermath.C91_equals",
    "Aftermath.C91_group",
    "Aftermath.C91_default",
    "Aftermath.C91_popup"
   ],
   "note": ""
  },
  {
   "property": "C92",
   "status": "partial",
   "theorems": [
    "Aftermath.C92_skip_partial",
    "Aftermath.C92_skip_not",
    "Aftermath.C92_memo_partial",
    "Aftermath.C92_memo_not"
   ],
   "note": "False of this commit: skipWhile returns everything if all elements satisfy the condition, and memoize mistakes a first call without (defined) arguments, or a call with fewer arguments, for a repeated one. Exact conditions are proved."
  },
  {
   "property": "C93",
   "status": "partial",
   "theorems": [
    "Aftermath.C93_partial",
    "Aftermath.C93_not"
   ],
   "note": "False of this commit: the result is that of the longest match, but the input stays where the last parser of the list stopped (C93_not). The result and that place are proved exactly."
  },
  {
   "property": "C94",
   "status": "proved",
   "theorems": [
    "Aftermath.C94",
    "Aftermath.C94_shipped",
    "Aftermath.C94_check"
   ],
   "note": ""
  },
  {
   "property": "C95",
   "status": "proved",
   "theorems": [
    "Aftermath.C95",
    "Aftermath.C95_alone",
    "Aftermath.C95_names"
   ],
   "note": "Empty brackets are read by rules of their own. The hypotheses are needed, see the examples."
  },
  {
   "property": "C96",
   "status": "proved",
   "theorems": [
    "Aftermath.C96"
   ],
   "note": "Like in C95, the brackets are not empty and closed; see the examples for why."
  },
  {
   "property": "C97",
   "status": "proved",
   "theorems": [
    "Aftermath.C97",
    "Aftermath.C97_typed"
   ],
   "note": "Like in C95 and C96, the brackets are not empty and closed."
  },
  {
   "property": "C98",
   "status": "proved",
   "theorems": [
    "Aftermath.C98",
    "Aftermath.C98_keys"
   ],
   "note": "For the production build. With overflow checks, Left at the start of a first cell panics (C26), so that roots and tables cannot be left to the left."
  },
  {
   "property": "C99",
   "status": "proved",
   "theorems": [
    "Aftermath.C99",
    "Aftermath.C99_page",
    "Aftermath.C99_sorts"
   ],
   "note": "For the shipped grammar; C99_sorts gives the replacements that are meant in terms of digits and Latin letters."
  }
 ]
}
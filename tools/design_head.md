# Formal model of aftermath-editor (Lean 4)

The model covers the Rust workspace `/repo/aftermath-core` (crates `input_tree`, `caret`, `parser`,
`serialization`) and the parts of the TypeScript frontend named below. Properties are listed in
`properties.jsonl`, their status in `MANIFEST.json`, attempts to fool the theorems in
`seeded/LOG.jsonl` (`survived` is null where the build ran out of memory before any theorem failed:
such an attempt is undecided, not caught).

This file is put together by `tools/design.py` from `tools/design_head.md`, `tools/design_how.py`,
`tools/design_tail.md`, the properties, the manifest and the output of `#print axioms`.

## Layout

* `lean/Verif/Model` - the model, one definition per function of the program, each with a citation
  of file and lines.
* `lean/Verif/Spec` - specifications that do not use the functions of the model whose correctness
  they state.
* `lean/Verif/Proof` - lemmas.
* `lean/Verif/Props` - the property theorems (`C01` ...), each with a concrete case beside it.
* `lean/Verif/Check` - the repository's own tests, run on the model by the kernel. They are not
  proofs of properties; they are evidence that the model says the same as the program.

## Conventions of the model

* A Rust panic (assert, unwrap/expect, slice or index out of range, `todo!`, `panic!`, integer
  overflow with checks on, division by zero) is an explicit `Except.error p` with an enumerated
  reason `p : Panic`. A panic is terminal. The same goes for a failed `assert` or a `TypeError` in
  TypeScript.
* `&mut self` functions return the new value.
* Build profile: `aftermath-core/package.json` builds the wasm with `wasm-pack build --dev`, so
  overflow checks are on in the shipped build. The model has a parameter `cfg` (checks on or off,
  number of bits of `usize`). `usize` subtraction panics or wraps accordingly. Additions and
  multiplications of `usize` are unbounded `Nat` (simplification: they are bounded by the sizes of
  vectors that exist in memory).
* Strings are `List Char`; byte lengths use `Char.utf8Size`.
* The tree is `Node = symbol | container variant cells width`, a flat list of cells plus a width, as
  in `GridVec`. `rowWf` says that a formula is well formed: grids have positive width, full rows
  and at least one cell; fractions and roots have two cells and scripts one.
* A focus (zipper) is modelled as the code has it: row, optional parent node focus, row indices
  that are handed down and back.
* The editor state machine (`Editor.step`) takes the parser, the autocomplete rules and the
  clipboard as an environment `Env`.
* The parser interprets a grammar given as data; recursion is open (`Rec`) and closed by a bound on
  the depth that is proved to be never reached (C43).

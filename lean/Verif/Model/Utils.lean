import Verif.Model.Tree

/-! # Helpers that stand on their own

`/repo/src/utils/array-utils.ts`, `map-utils.ts`, `memoize.ts`, `/repo/src/component/autocomplete/autocomplete-element.ts` and
`/repo/aftermath-core/parser/src/parser/greedy_choice.rs`. Nothing else in the repository calls them
(apart from the constructor of the autocomplete element), so the rest of the model does not use this
file. -/

namespace Aftermath

/-! ## `array-utils.ts` -/

/-- The loop of `getBinaryInsertIndex`, `src/utils/array-utils.ts` 15-26. The number `fuel` bounds the
rounds; running out of it is the error `fuel`, which `C91_search` excludes. `array[middle]` outside of
the array would be `undefined`; that is the error `outOfRange`. The result of
`compareFunction` is an integer here (a `NaN` would be taken as 0). -/
def binaryLoop {α : Type} (array : List α) (cmp : α → Int) : Nat → Int → Int → M (Int × Bool)
  | 0, _, _ => .error .fuel
  | fuel + 1, low, high =>
    if low ≤ high then
      let middle := low + (high - low) / 2
      match if middle < 0 then none else array[middle.toNat]? with
      | none => .error .outOfRange
      | some x =>
        let comparison := cmp x
        if comparison < 0 then binaryLoop array cmp fuel (middle + 1) high
        else if comparison > 0 then binaryLoop array cmp fuel low (middle - 1)
        else .ok (middle, true)
    else .ok (low, false)

/-- `getBinaryInsertIndex`, `array-utils.ts` 8-29 -/
def getBinaryInsertIndex {α : Type} (array : List α) (cmp : α → Int) : M (Int × Bool) :=
  binaryLoop array cmp (array.length + 1) 0 (array.length - 1)

/-- `remove`, `array-utils.ts` 43-51: the array afterwards and the result. `same` is `===`. -/
def arrayRemove {α : Type} (same : α → α → Bool) (array : List α) (element : α) : List α × Bool :=
  match array.findIdx? fun x => same x element with
  | some i => (array.eraseIdx i, true)
  | none => (array, false)

/-- `array.findIndex((a, i) => !predicate(a, i))`, `array-utils.ts` 53 and 61 -/
def findFailing {α : Type} (p : α → Nat → Bool) : Nat → List α → Option Nat
  | _, [] => none
  | i, x :: xs => if !p x i then some i else findFailing p (i + 1) xs

/-- `skipWhile`, `array-utils.ts` 52-59 -/
def skipWhile {α : Type} (array : List α) (p : α → Nat → Bool) : List α :=
  match findFailing p 0 array with
  | some i => array.drop i
  | none => array

/-- `takeWhile`, `array-utils.ts` 60-67 -/
def takeWhile {α : Type} (array : List α) (p : α → Nat → Bool) : List α :=
  match findFailing p 0 array with
  | some i => array.take i
  | none => array

/-- `zipWith`, `array-utils.ts` 71-73; `undefined` is `none` -/
def zipBoth {α : Type} (a b : List α) : List (Option α × Option α) :=
  (List.range (max a.length b.length)).map fun i => (a[i]?, b[i]?)

/-- `range`, `array-utils.ts` 77-79. `new Array` with a negative length throws a `RangeError`. -/
def arrayRange (start stop : Int) : M (List Int) :=
  if stop - start < 0 then .error .assertion
  else .ok ((List.range (stop - start).toNat).map fun i : Nat => (i : Int) + start)

/-- `shallowEquals`, `array-utils.ts` 80-85; `identical` says that the two are the same object. -/
def shallowEquals {α : Type} (same : α → α → Bool) (identical : Bool) (a b : List α) : Bool :=
  if identical then true
  else if a.length ≠ b.length then false
  else (a.zip b).all fun p => same p.1 p.2

/-! ## `map-utils.ts`

A `Map` is the list of its entries in the order of insertion. -/

/-- `Map.get` -/
def mapGet {K V : Type} [DecidableEq K] (m : List (K × V)) (k : K) : Option V :=
  (m.find? fun e => e.1 = k).map (·.2)

/-- `group.push(value)` on the array stored at the key -/
def pushAt {K V : Type} [DecidableEq K] (k : K) (v : V) : List (K × List V) → List (K × List V)
  | [] => []
  | (k', vs) :: m => if k' = k then (k', vs ++ [v]) :: m else (k', vs) :: pushAt k v m

/-- One round of `groupBy`, `map-utils.ts` 14-20 -/
def groupStep {K V : Type} [DecidableEq K] (key : V → K) (m : List (K × List V)) (v : V) :
    List (K × List V) :=
  match mapGet m (key v) with
  | some _ => pushAt (key v) v m
  | none => m ++ [(key v, [v])]

/-- `groupBy`, `map-utils.ts` 11-23 -/
def groupBy {K V : Type} [DecidableEq K] (values : List V) (key : V → K) : List (K × List V) :=
  values.foldl (groupStep key) []

/-- `getOrDefault`, `map-utils.ts` 2-10: the result and the map afterwards -/
def getOrDefault {K V : Type} [DecidableEq K] (m : List (K × V)) (k : K) (dflt : Unit → V) :
    V × List (K × V) :=
  match mapGet m k with
  | some v => (v, m)
  | none => (dflt (), m ++ [(k, dflt ())])

/-! ## `memoize.ts` -/

/-- What the closure of `memoize` keeps, `src/utils/memoize.ts` 2-3. `undefined` as a result is
`none`. -/
structure Memo (α β : Type) where
  args : List α
  value : Option β

/-- `let cachedArgs = []; let cachedValue;` -/
def Memo.new {α β : Type} : Memo α β := ⟨[], none⟩

/-- `arg === cachedArgs[i]`, `memoize.ts` 5. An argument is `some a`, or `none` for `undefined`; `same`
is `===` on the other values. -/
def sameArg {α : Type} (same : α → α → Bool) : Option α → Option α → Bool
  | none, none => true
  | some a, some b => same a b
  | _, _ => false

/-- A call of the function returned by `memoize`, `memoize.ts` 4-12: the result and what is kept
afterwards. Looking at `cachedArgs` behind its end gives `undefined`. -/
def Memo.call {α β : Type} (same : α → α → Bool) (f : List (Option α) → β)
    (m : Memo (Option α) β) (args : List (Option α)) : Option β × Memo (Option α) β :=
  if args.zipIdx.all fun p => sameArg same p.1 ((m.args[p.2]?).getD none) then (m.value, m)
  else (some (f args), ⟨args, some (f args)⟩)

/-- Calls one after the other. -/
def Memo.calls {α β : Type} (same : α → α → Bool) (f : List (Option α) → β) :
    Memo (Option α) β → List (List (Option α)) → List (Option β)
  | _, [] => []
  | m, args :: rest => (m.call same f args).1 :: Memo.calls same f (m.call same f args).2 rest

/-! ## `autocomplete-element.ts` -/

/-- The list of the popup and whether it is visible, `autocomplete-element.ts` 8-11 and 42-45 -/
structure Popup where
  items : List Str
  visible : Bool

/-- The constructor, `autocomplete-element.ts` 17-36 -/
def Popup.new : Popup := ⟨[], false⟩

/-- `setElements`, `autocomplete-element.ts` 53-61 -/
def Popup.setElements (_ : Popup) (elements : List Str) : Popup :=
  ⟨elements.foldl (fun l e => l ++ [e]) [], decide (elements.length > 0)⟩

/-! ## `greedy_choice.rs` -/

/-- A parser over a fixed input: from a position to the result and the position afterwards. -/
abbrev Scan (ε α : Type) := Nat → Except ε α × Nat

/-- The order given to `max_by`, `greedy_choice.rs` 40-45: whether `b` is at least `a`. -/
def scanLe {ε α : Type} (a b : Except ε α × Nat) : Bool :=
  match a, b with
  | (.ok _, i), (.ok _, j) => decide (i ≤ j)
  | (.ok _, _), (.error _, _) => false
  | (.error _, _), _ => true

/-- `Iterator::max_by`: the last one of the greatest elements -/
def maxBy {γ : Type} (le : γ → γ → Bool) : List γ → Option γ
  | [] => none
  | x :: xs => some (xs.foldl (fun a b => if le a b then b else a) x)

/-- `GreedyChoice_::parse`, `greedy_choice.rs` 25-52, with at least one parser (lines 58-63 assert
that). Every parser is run from the same position. The input stays where the last one left it. -/
def greedyChoice {ε α : Type} (parsers : List (Scan ε α)) (pos : Nat) : M (Except ε α × Nat) :=
  match parsers.getLast? with
  | none => .error .assertion
  | some last =>
    match maxBy scanLe (parsers.map fun p => p pos) with
    | none => .error .assertion
    | some (r, _) => .ok (r, (last pos).2)

end Aftermath

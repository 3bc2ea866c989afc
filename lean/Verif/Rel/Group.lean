/-
  Model of `runtime/local/kernels/Group.h` (and the parts of `ExtractRow.h`, `ExtractCol.h` and `Order.h` it uses, on
  frames).
-/
import Verif.Rel.OrderProps
import Verif.Rel.Frame

namespace Verif.Rel
open Verif

/-- The operations of the value types on cells. -/
structure Ops (V : Type) where
  lt : VTC → V → V → Bool
  ne : VTC → V → V → Bool
  /-- `size_t` count as a cell of a `UI64` column -/
  ofCount : Nat → V
  /-- `(VTRes)0` -/
  zero : VTC → V
  /-- one step of `std::accumulate` with an accumulator of type `VTRes` and an element of the same type -/
  add : VTC → V → V → V
  /-- one step of `std::accumulate` with a `double` accumulator and an element of the given type -/
  addD : VTC → V → V → V
  zeroD : V
  /-- division of a `double` by `(double)(end - begin)` -/
  divD : V → Nat → V

/-- The key column `i` of a frame, as used by `OrderFrame::apply`. -/
def FCol.key (ops : Ops V) (c : FCol V) : Key := ⟨V, ops.lt c.vt, ops.ne c.vt, c.data.data⟩

/-- `ExtractRow` on frames — ExtractRow.h:76-145, for a selection of `size_t` positions (byte-level model in
    `Verif/Rel/FrameBytes.lean`). -/
def Frame.extractRow (f : Frame V) (idx : List Nat) : Res (Frame V) :=
  if idx.any fun i => f.numRows ≤ i then .error (.throw "ExtractRow: out of bounds")
  else do
    let m ← initL 0 f.labels []
    .ok ⟨idx.length, f.cols.map fun c => { c with data := ⟨idx.length + 7, fun r => c.data.data (idx.getD r 0)⟩ }, m⟩

/-- `Order<Frame, Frame>::apply` — Order.h:239-250, with `groupsRes`. `DeduceValueTypeAndExecute` rejects FIXEDSTR16. -/
def Frame.order (ops : Ops V) (fuel : Nat) (f : Frame V) (colIdxs : List Nat) (asc : List Bool) (wantGroups : Bool) :
    Res (Option (Frame V × List (Nat × Nat))) := do
  let ks := (colIdxs.filterMap fun i => f.cols[i]?)
  if ks.any fun c => c.vt = .fixedStr16 then .error (.throw "unknown value type code")
  else do
    let st ← orderIdx fuel f.numRows ((ks.map (·.key ops)).zip asc) wantGroups
    match st with
    | none => .ok none
    | some (idx, gs) => do
      let r ← f.extractRow idx
      .ok (some (r, gs))

/-- `GroupEnum` — DaphneOps.td:1287-1293. -/
inductive GFn where
  | count | sum | min | max | avg
  deriving DecidableEq, Repr

/-- `myStringifyGroupEnum` — Group.h:62-77. -/
def GFn.name : GFn → String
  | .count => "COUNT" | .sum => "SUM" | .min => "MIN" | .max => "MAX" | .avg => "AVG"

/-- `std::min_element` (first of the smallest elements). -/
def minElem (lt : V → V → Bool) : List V → Option V
  | [] => none
  | x :: xs => some (xs.foldl (fun best y => if lt y best then y else best) x)

/-- `std::max_element` (first of the largest elements). -/
def maxElem (lt : V → V → Bool) : List V → Option V
  | [] => none
  | x :: xs => some (xs.foldl (fun best y => if lt best y then y else best) x)

/-- `*it` of an iterator that may be `end` -/
def deref : Option V → Res V
  | some v => .ok v
  | none => .error (.ub "dereference of the end iterator")

/-- `aggregate<VTRes, VTArg>` — Group.h:81-138, on the values of a range. `none` is the `(GroupEnum)0` used for key
    columns (`default` case). The specialization for strings (Group.h:129-138) returns the first string for everything
    but MIN and MAX. -/
def aggregate (ops : Ops V) (fn : Option GFn) (res arg : VTC) (vals : List V) : Res V :=
  if res = .str ∧ arg = .str then
    match fn with
    | some .min => deref (minElem (ops.lt arg) vals)
    | some .max => deref (maxElem (ops.lt arg) vals)
    | _ => deref vals.head?
  else match fn with
    | some .count => if res = .str then .error (.throw "aggregation is not supported") else .ok (ops.ofCount vals.length)
    | some .sum => if res = .str ∨ arg = .str then .error (.throw "aggregation is not supported")
        else .ok (vals.foldl (ops.add res) (ops.zero res))
    | some .min => if res = .str ∨ arg = .str then .error (.throw "aggregation is not supported")
        else deref (minElem (ops.lt arg) vals)
    | some .max => if res = .str ∨ arg = .str then .error (.throw "aggregation is not supported")
        else deref (maxElem (ops.lt arg) vals)
    | some .avg => if res = .str ∨ arg = .str then .error (.throw "aggregation is not supported")
        else .ok (ops.divD (vals.foldl (ops.addD arg) ops.zeroD) vals.length)
    | none => if res = .str ∨ arg = .str then .error (.throw "aggregation is not supported") else deref vals.head?

/-- The values in `[valuesArg + a, valuesArg + b)`. -/
def readRange (b : Buf V) (lo hi : Nat) : Res (List V) := (List.range' lo (hi - lo)).mapM b.read

/-- The one-row ranges of rows `a … b-1`. -/
def singles (a b : Nat) : List (Nat × Nat) := (List.range' a (b - a)).map fun r => (r, r + 1)

/-- The loop over the groups of `ColumnGroupAgg` — Group.h:164-169: each group, then the rows up to the next one. -/
def midRanges : List (Nat × Nat) → List (Nat × Nat)
  | [] => []
  | [g] => [g]
  | g :: g' :: gs => g :: (singles g.2 g'.1 ++ midRanges (g' :: gs))

/-- The ranges that `ColumnGroupAgg` aggregates, in the order of the result rows — Group.h:154-171. -/
def aggRanges (groups : List (Nat × Nat)) (n : Nat) : List (Nat × Nat) :=
  match groups with
  | [] => singles 0 n
  | g0 :: _ => singles 0 g0.1 ++ midRanges groups ++ singles (groups.getLastD (0, 0)).2 n

/-- `ColumnGroupAgg::apply` — Group.h:144-173. -/
def columnGroupAgg (ops : Ops V) (fn : Option GFn) (resT argT : VTC) (arg : Buf V) (groups : List (Nat × Nat)) (n : Nat)
    (out : Buf V) : Res (Buf V) :=
  (aggRanges groups n).foldlM (init := (0, out)) (fun st g => do
    let vals ← readRange arg g.1 g.2
    let v ← aggregate ops fn resT argT vals
    let o ← st.2.write st.1 v
    .ok (st.1 + 1, o)) >>= fun st => .ok st.2

/-- `keyLabel.substr(0, keyLabel.find("."))` -/
def framePart (l : String) : String := String.ofList (l.toList.takeWhile (· ≠ '.'))
/-- `keyLabel.substr(keyLabel.find(".") + 1)` (the whole label if there is no dot: `npos + 1 == 0`) -/
def colPart (l : String) : String :=
  match l.toList.dropWhile (· ≠ '.') with
  | [] => l
  | _ :: r => String.ofList r

/-- The labels that one key label stands for — Group.h:203-229: `*` and `f.*`; otherwise none. -/
def starOf (argLabels aggCols : List String) (k : String) : Option (List String) :=
  if k = "*" then some (argLabels.filter fun l => !aggCols.contains l)
  else if colPart k = "*" then some (argLabels.filter fun l => framePart k = framePart l)
  else none

/-- `starLabels` — Group.h:196-230. -/
def starLabels (argLabels aggCols keyCols : List String) : List String :=
  keyCols.flatMap fun k => (starOf argLabels aggCols k).getD []

/-- The value type of the result column of an aggregation — Group.h:287-303. -/
def GFn.resType (t : VTC) : GFn → VTC
  | .count => .ui64
  | .avg => .f64
  | _ => t

/-- The writes `ascending[i] = true` for `i < numKeyCols` into an array of `starLabels.size()` elements, of which the
    allocator makes `usable` available — Group.h:235-239. -/
def fillAscending (usable numKeys : Nat) : Res (List Bool) :=
  if numKeys ≤ usable then .ok (List.replicate numKeys true) else .error (.ub "ascending[i] out of bounds")

/-- The ordering step of `Group<Frame>::apply` — Group.h:250-258: with no keys, all rows form one group. -/
def orderStage (ops : Ops V) (fuel : Nat) (reduced : Frame V) (k n : Nat) (asc : List Bool) :
    Res (Option (Frame V × List (Nat × Nat))) :=
  if 0 < k then reduced.order ops fuel (List.range k) asc true else .ok (some (reduced, [(0, n)]))

/-- `Group<Frame>::apply` — Group.h:184-330. `usable k` is the number of elements the allocator makes available for
    `new bool[k]` (the language guarantees `k`). The `idxs` array has `numColsRes` elements. `DeduceValueTypeAndExecute`
    rejects FIXEDSTR16 columns. -/
def group (ops : Ops V) (usable : Nat → Nat) (fuel : Nat) (arg : Frame V) (keyCols : List String)
    (aggs : List (String × GFn)) (junk : Nat → Nat → V) : Res (Option (Frame V)) := do
  let aggCols := aggs.map (·.1)
  let star := starLabels arg.labels aggCols keyCols
  let sawStar := keyCols.any fun k => (starOf arg.labels aggCols k).isSome
  let numColsRes := if sawStar then star.length + aggs.length else keyCols.length + aggs.length
  let keyLabels := if star.length = 0 then keyCols else star
  let keyIdxs ← keyLabels.mapM arg.getColumnIdx
  if numColsRes < keyLabels.length then .error (.ub "idxs[i] out of bounds")
  else do
  let asc ← fillAscending (usable star.length) keyLabels.length
  let aggIdxs ← (aggCols.take (numColsRes - keyLabels.length)).mapM arg.getColumnIdx
  let reduced ← arg.sub 0 arg.numRows (keyIdxs ++ aggIdxs)
  let st ← orderStage ops fuel reduced keyLabels.length arg.numRows asc
  match st with
  | none => .ok none
  | some (ordered, groups) => do
    let inGroups : Int := (groups.map fun g => (g.2 : Int) - g.1).sum
    let numRowsRes := ((arg.numRows : Int) - (inGroups - groups.length)).toNat
    let fns : List (Option GFn) := keyLabels.map (fun _ => none) ++ aggs.map fun a => some a.2
    let labels := keyLabels ++ aggs.map fun a => a.2.name ++ "(" ++ a.1 ++ ")"
    let schema := (ordered.cols.zip fns).map fun p => (p.2.map (GFn.resType p.1.vt)).getD p.1.vt
    let res ← Frame.create numRowsRes schema (some labels) junk
    if ordered.cols.any fun c => c.vt = .fixedStr16 then .error (.throw "unknown value type code")
    else do
    let cols ← ((res.cols.zip ordered.cols).zip fns).mapM fun p => do
      let b ← columnGroupAgg ops p.2 p.1.1.vt p.1.2.vt p.1.2.data groups arg.numRows p.1.1.data
      .ok { p.1.1 with data := b }
    .ok (some { res with cols := cols })

end Verif.Rel

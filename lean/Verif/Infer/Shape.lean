/-
  Shape inference: src/ir/daphneir/DaphneInferShapeOpInterface.cpp (traits and interface implementations), the trait lists of the operations in
  src/ir/daphneir/DaphneOps.td, and the replacement of nrow/ncol/ncell by constants (src/ir/daphneir/Canonicalize.cpp:189-255).
  Properties C148-C153.
-/
import Verif.Infer.Types
import Verif.Dense.KernelProps
import Verif.Shape.Reshape
import Verif.Shape.Tri
import Verif.Shape.Cells
import Verif.Shape.Cast
import Verif.Shape.CTable

namespace Verif.Infer

/-! ### Model of the compiler -/

/-- What the compiler knows of an operand: a matrix or frame with its number of rows and columns (-1: unknown), or a scalar (maybe a constant;
numbers of rows and flags are scalars too). Other scalars are `sca none`. -/
inductive CArg where
  | data (r c : Int)
  | sca (v : Option Int)
  deriving DecidableEq

/-- `getShape` — DaphneInferShapeOpInterface.cpp:41-55. -/
def CArg.rows : CArg → Int
  | .data r _ => r
  | .sca _ => 1
def CArg.cols : CArg → Int
  | .data _ c => c
  | .sca _ => 1

/-- `CompilerUtils::constantOrDefault<int64_t>(v, -1)` (CompilerUtils.h). -/
def CArg.const : CArg → Int
  | .sca (some v) => v
  | _ => -1

/-- The operations with shape inference. `Op.traits` lists the traits; the operations without traits implement the interface (`inferIface`). -/
inductive Op where
  | fill | rand | sample | diagMatrix | ewUnary | ewBinary | outer | rowAgg | colAgg | cumAgg | extractRow | insertRow | insertCol | reshape
  | transpose | colBind | rowBind | reverse | diagVector | tri | solve | replace | gemv | setColLabels | cast | quantize | filterRow | filterCol
  | oneHot | bin | map | matMul | order | ctable | sliceRow | sliceCol | extractCol | cond | createFrame
  | cartesian | syrk | posListToBitmap | bitmapToPosList
  deriving DecidableEq

/-- src/ir/daphneir/DaphneInferShapeTraits.td:26-49. -/
inductive Trait where
  | oneRow | oneCol
  | rowsScalar (i : Nat) | colsScalar (i : Nat)
  | rowsArg (i : Nat) | colsArg (i : Nat)
  | rowsArgCols (i : Nat) | colsArgRows (i : Nat)
  | rowsAll | colsAll | rowsSum | colsSum
  | shapeArg (i : Nat)
  | ewBinary
  deriving DecidableEq

/-- The trait lists in DaphneOps.td, at the line given. -/
def Op.traits : Op → List Trait
  | .fill => [.rowsScalar 1, .colsScalar 2]            -- 134
  | .diagMatrix => [.rowsArg 0, .colsArgRows 0]        -- 163
  | .rand => [.rowsScalar 0, .colsScalar 1]            -- 172
  | .sample => [.rowsScalar 1, .oneCol]                -- 181
  | .ewUnary => [.shapeArg 0]                          -- 257
  | .ewBinary => [.ewBinary]                           -- 337
  | .outer => [.rowsArg 0, .colsArg 1]                 -- 419
  | .rowAgg => [.rowsArg 0, .oneCol]                   -- 527
  | .colAgg => [.oneRow, .colsArg 0]                   -- 531
  | .cumAgg => [.shapeArg 0]                           -- 571
  | .extractRow => [.rowsArg 1, .colsArg 0]            -- 648
  | .insertRow => [.shapeArg 0]                        -- 731
  | .insertCol => [.shapeArg 0]                        -- 739
  | .reshape => [.rowsScalar 1, .colsScalar 2]         -- 751
  | .transpose => [.rowsArgCols 0, .colsArgRows 0]     -- 760
  | .colBind => [.rowsAll, .colsSum]                   -- 787
  | .rowBind => [.rowsSum, .colsAll]                   -- 793
  | .reverse => [.shapeArg 0]                          -- 797
  | .diagVector => [.rowsArg 0, .oneCol]               -- 1010
  | .tri => [.shapeArg 0]                              -- 1017
  | .solve => [.rowsArg 0, .oneCol]                    -- 1024
  | .replace => [.shapeArg 0]                          -- 1031
  | .syrk => [.rowsArgCols 0, .colsArg 0]              -- 1048
  | .gemv => [.rowsArgCols 0, .oneCol]                 -- 1059
  | .cartesian => [.colsSum]                           -- 1109 (rows: `inferIface`)
  | .filterRow => [.colsArg 0]                         -- 1233
  | .filterCol => [.rowsArg 0]                         -- 1258
  | .setColLabels => [.shapeArg 0]                     -- 1498, 1510
  | .cast => [.shapeArg 0]                             -- 1529
  | .quantize => [.shapeArg 0]                         -- 1646
  | .posListToBitmap => [.shapeArg 0]                  -- 1659
  | .bitmapToPosList => [.shapeArg 0]                  -- 1670
  | .oneHot => [.rowsArg 0]                            -- 1810
  | .bin => [.shapeArg 0]                              -- 1826
  | .map => [.shapeArg 0]                              -- 1947
  | _ => []

/-- `inferNumRowsFromArgs`, `inferNumColsFromArgs` — 57-107: the loop over the remaining operands; `n` is the number found so far. -/
def allSame (n : Int) (unknown : Bool) : List Int → Except String Int
  | [] => .ok (if unknown then -1 else n)
  | m :: ms =>
    if m = -1 then allSame n true ms
    else if n = -1 then allSame m unknown ms
    else if m ≠ n then .error "arguments have different numbers of rows/columns"
    else allSame n unknown ms

/-- The first operand, then the loop (57-64, 83-89). Without operands, `vs[0]` is out of bounds. -/
def fromAll : List Int → Except String Int
  | [] => .error "no operands"
  | n :: ns => allSame n (n == -1) ns

/-- `inferNumRowsFromSumOfArgs`, `inferNumColsFromSumOfArgs` — 109-129. -/
def fromSum (acc : Int) : List Int → Int
  | [] => acc
  | m :: ms => if m = -1 then -1 else fromSum (acc + m) ms

/-- The operand at a position (the verifier of the operation guarantees that it exists). -/
def nth (args : List CArg) (i : Nat) : CArg := args.getD i (.data (-1) (-1))

/-- ShapeEwBinary — 712-727. -/
def ewShape (l r : CArg) : Int × Int :=
  if l.rows = -1 ∧ l.cols = 1 ∧ r.rows = -1 ∧ r.cols = 1 then (-1, 1)
  else if r.rows = -1 ∨ r.cols = -1 then (-1, -1)
  else (l.rows, l.cols)

/-- The traits are tried for the positions 9, 8, …, 0 (TypeInferenceUtils.h:326-336). -/
def positions10 : List Nat := [9, 8, 7, 6, 5, 4, 3, 2, 1, 0]

/-- One kind of parametric trait: the last position with the trait determines the value. -/
def tryParam (ts : List Trait) (mk : Nat → Trait) (set : Int × Int → Nat → Int × Int) (s : Int × Int) : Int × Int :=
  positions10.foldl (fun s i => if mk i ∈ ts then set s i else s) s

/-- Up to the traits that can fail (678-697). -/
def traitsA (ts : List Trait) (args : List CArg) : Int × Int :=
  let s : Int × Int := (-1, -1)
  let s := if Trait.oneRow ∈ ts then (1, s.2) else s
  let s := if Trait.oneCol ∈ ts then (s.1, 1) else s
  let s := tryParam ts .rowsScalar (fun s i => ((nth args i).const, s.2)) s
  let s := tryParam ts .colsScalar (fun s i => (s.1, (nth args i).const)) s
  let s := tryParam ts .rowsArg (fun s i => ((nth args i).rows, s.2)) s
  let s := tryParam ts .colsArg (fun s i => (s.1, (nth args i).cols)) s
  let s := tryParam ts .rowsArgCols (fun s i => ((nth args i).cols, s.2)) s
  tryParam ts .colsArgRows (fun s i => (s.1, (nth args i).rows)) s

def traitsRowsAll (ts : List Trait) (args : List CArg) (s : Int × Int) : Except String (Int × Int) :=
  if Trait.rowsAll ∈ ts then (fromAll (args.map CArg.rows)).map fun r => (r, s.2) else .ok s
def traitsColsAll (ts : List Trait) (args : List CArg) (s : Int × Int) : Except String (Int × Int) :=
  if Trait.colsAll ∈ ts then (fromAll (args.map CArg.cols)).map fun c => (s.1, c) else .ok s

/-- The traits after those (702-727). -/
def traitsB (ts : List Trait) (args : List CArg) (s : Int × Int) : Int × Int :=
  let s := if Trait.rowsSum ∈ ts then (fromSum 0 (args.map CArg.rows), s.2) else s
  let s := if Trait.colsSum ∈ ts then (s.1, fromSum 0 (args.map CArg.cols)) else s
  let s := tryParam ts .shapeArg (fun _ i => ((nth args i).rows, (nth args i).cols)) s
  if Trait.ewBinary ∈ ts then ewShape (nth args 0) (nth args 1) else s

/-- `tryInferShape` for an operation with traits (668-727). -/
def inferTraits (ts : List Trait) (args : List CArg) : Except String (Int × Int) :=
  match traitsRowsAll ts args (traitsA ts args) with
  | .error e => .error e
  | .ok s =>
    match traitsColsAll ts args s with
    | .error e => .error e
    | .ok s => .ok (traitsB ts args s)

/-- The range of SliceRowOp and SliceColOp — 430-464, 490-524. -/
def sliceLen (n : Int) (lo up : CArg) : Except String Int :=
  match n, lo, up with
  | n, .sca (some l), .sca (some u) =>
    if n = -1 then .ok (-1) else
    let l' := if l < 0 then l + n else l
    let u' := if l < 0 then (if u ≤ 0 then u + n else u) else if u < 0 then u + n else u
    if l' < 0 ∨ l' ≥ n then .error "lowerIncl"
    else if u' < 0 ∨ u' > n then .error "upperExcl"
    else if l' > u' then .error "lowerIncl > upperExcl"
    else .ok (u' - l')
  | _, _, _ => .ok (-1)

/-- CondOp — 276-326 (the condition is not of unknown type, and no frame). -/
def condShape (c t e : CArg) : Int × Int :=
  match c with
  | .data r c => (r, c)
  | .sca _ =>
    match t, e with
    | .data r1 c1, .data r2 c2 => (if r1 = r2 then r1 else -1, if c1 = c2 then c1 else -1)
    | _, _ => (-1, -1)

/-- The value of a flag, if it is a constant. -/
def CArg.flag : CArg → Option Bool
  | .sca (some v) => some (v != 0)
  | _ => none

/-- The operations with an interface implementation; the others use the traits. Operands:
* matMul (224-240): lhs, rhs, transa, transb
* order (252-274): the argument and returnIdxs (the column positions and directions are left out)
* ctable (382-393): lhs, rhs, weight, number of rows, number of columns
* sliceRow, sliceCol (403-529): source, lower, upper bound
* extractCol (531-555): source and positions, or a label without a wildcard (a scalar)
* createFrame (179-181): the columns (the labels are left out)
* cartesian (135-139, after the traits: 729-732): two frames -/
def inferShape (op : Op) (args : List CArg) : Except String (Int × Int) :=
  match op with
  | .matMul => .ok ((match (nth args 2).flag with | some b => if b then (nth args 0).cols else (nth args 0).rows | none => -1),
      (match (nth args 3).flag with | some b => if b then (nth args 1).rows else (nth args 1).cols | none => -1))
  | .order => .ok ((nth args 0).rows, match (nth args 1).flag with | some b => if b then 1 else (nth args 0).cols | none => -1)
  | .ctable => .ok ((nth args 3).const, (nth args 4).const)
  | .sliceRow => (sliceLen (nth args 0).rows (nth args 1) (nth args 2)).map fun r => (r, (nth args 0).cols)
  | .sliceCol => (sliceLen (nth args 0).cols (nth args 1) (nth args 2)).map fun c => ((nth args 0).rows, c)
  | .extractCol => .ok ((nth args 0).rows, (nth args 1).rows)
  | .cond => .ok (condShape (nth args 0) (nth args 1) (nth args 2))
  | .createFrame => (fromAll (args.map CArg.rows)).map fun r => (r, fromSum 0 (args.map CArg.cols))
  | .cartesian => (inferTraits op.traits args).map fun s => ((nth args 0).rows * (nth args 1).rows, s.2)
  | _ => inferTraits op.traits args

/-- NumRowsOp, NumColsOp, NumCellsOp — Canonicalize.cpp:189-255: the constant that replaces the operation. -/
def foldNumRows (s : Int × Int) : Option Int := if s.1 ≠ -1 then some s.1 else none
def foldNumCols (s : Int × Int) : Option Int := if s.2 ≠ -1 then some s.2 else none
def foldNumCells (s : Int × Int) : Option Int := if s.1 ≠ -1 ∧ s.2 ≠ -1 then some (s.1 * s.2) else none

/-! ### Specification: shapes of the results of the kernels -/

/-- An operand at run time: a matrix or frame of `r` rows and `c` columns, or a scalar. -/
inductive RArg where
  | data (r c : Nat)
  | sca (v : Int)
  deriving DecidableEq

/-- What the compiler knows of the operand is true. -/
def FitsArg : RArg → CArg → Prop
  | .data r c, .data r' c' => FitsNum r r' ∧ FitsNum c c'
  | .sca v, .sca w => ∀ k, w = some k → v = k
  | _, _ => False

/-- The number of rows (columns) of operands that are all data objects. -/
def RArg.isData : RArg → Prop
  | .data _ _ => True
  | .sca _ => False
def RArg.rows : RArg → Nat
  | .data r _ => r
  | .sca _ => 1
def RArg.cols : RArg → Nat
  | .data _ c => c
  | .sca _ => 1

/-- The operation accepts operands of these shapes, and the result has `R` rows and `C` columns. For ctable a requested size of -1 means that the
size depends on the data, so any size is possible; so is the number of rows of filterRow and columns of filterCol and oneHot. -/
inductive Produces : Op → List RArg → Nat → Nat → Prop
  | fill (v R C) : Produces .fill [v, .sca (R : Nat), .sca (C : Nat)] R C
  | rand (R C lo hi sp seed) : Produces .rand [.sca (R : Nat), .sca (C : Nat), lo, hi, sp, seed] R C
  | sample (range R repl seed) : Produces .sample [range, .sca (R : Nat), repl, seed] R 1
  | diagMatrix (n) : Produces .diagMatrix [.data n 1] n n
  | ewUnary (r c) : Produces .ewUnary [.data r c] r c
  | ewBinary (r c r' c') (h : (r' = r ∨ r' = 1) ∧ (c' = c ∨ c' = 1)) : Produces .ewBinary [.data r c, .data r' c'] r c
  | ewBinarySca (r c v) : Produces .ewBinary [.data r c, .sca v] r c
  | outer (m n) : Produces .outer [.data m 1, .data 1 n] m n
  | rowAgg (r c) : Produces .rowAgg [.data r c] r 1
  | colAgg (r c) : Produces .colAgg [.data r c] 1 c
  | cumAgg (r c) : Produces .cumAgg [.data r c] r c
  | extractRow (r c k) : Produces .extractRow [.data r c, .data k 1] k c
  | insertRow (r c k l u) : Produces .insertRow [.data r c, .data k c, .sca l, .sca u] r c
  | insertCol (r c k l u) : Produces .insertCol [.data r c, .data r k, .sca l, .sca u] r c
  | reshape (r c R C : Nat) (h : R * C = r * c) : Produces .reshape [.data r c, .sca R, .sca C] R C
  | transpose (r c) : Produces .transpose [.data r c] c r
  | colBind (r c c') : Produces .colBind [.data r c, .data r c'] r (c + c')
  | rowBind (r r' c) : Produces .rowBind [.data r c, .data r' c] (r + r') c
  | reverse (r c) : Produces .reverse [.data r c] r c
  | diagVector (n) : Produces .diagVector [.data n n] n 1
  | tri (r c u d v) : Produces .tri [.data r c, .sca u, .sca d, .sca v] r c
  | solve (n) : Produces .solve [.data n n, .data n 1] n 1
  | replace (r c p q) : Produces .replace [.data r c, .sca p, .sca q] r c
  | gemv (r c) : Produces .gemv [.data r c, .data r 1] c 1
  | setColLabels (r c ls) : Produces .setColLabels (.data r c :: ls) r c
  | cast (r c) : Produces .cast [.data r c] r c
  | castSca (v) : Produces .cast [.sca v] 1 1
  | quantize (r c lo hi) : Produces .quantize [.data r c, .sca lo, .sca hi] r c
  | filterRow (r c R) (h : R ≤ r) : Produces .filterRow [.data r c, .data r 1] R c
  | filterCol (r c C) (h : C ≤ c) : Produces .filterCol [.data r c, .data c 1] r C
  | oneHot (r c i C) : Produces .oneHot [.data r c, .data 1 i] r C
  | bin (r c n lo hi) : Produces .bin [.data r c, .sca n, .sca lo, .sca hi] r c
  | map (r c) : Produces .map [.data r c] r c
  | matMul (r k c) (r1 c1 r2 c2 : Nat) (ta tb : Int) (h1 : (r1, c1) = if ta = 0 then (r, k) else (k, r))
      (h2 : (r2, c2) = if tb = 0 then (k, c) else (c, k)) : Produces .matMul [.data r1 c1, .data r2 c2, .sca ta, .sca tb] r c
  | order (r c) : Produces .order [.data r c, .sca 0] r c
  | orderIdxs (r c v) (h : v ≠ 0) : Produces .order [.data r c, .sca v] r 1
  | ctable (r w) (R C : Nat) (kr kc : Int) (hr : kr = -1 ∨ kr = R) (hc : kc = -1 ∨ kc = C) :
      Produces .ctable [.data r 1, .data r 1, .sca w, .sca kr, .sca kc] R C
  | sliceRow (r c l u) (h : Dense.RangeOk l u r) :
      Produces .sliceRow [.data r c, .sca l, .sca u] ((Dense.rangeUpper l u r).toNat - (Dense.rangeLower l r).toNat) c
  | sliceCol (r c l u) (h : Dense.RangeOk l u c) :
      Produces .sliceCol [.data r c, .sca l, .sca u] r ((Dense.rangeUpper l u c).toNat - (Dense.rangeLower l c).toNat)
  | extractCol (r c k) : Produces .extractCol [.data r c, .data k 1] r k
  | extractLabel (r c l) : Produces .extractCol [.data r c, .sca l] r 1
  | condMat (r c t e) : (∀ x ∈ [t, e], x = .data r c ∨ ∃ v, x = .sca v) → Produces .cond [.data r c, t, e] r c
  | condThen (v r c e) : v ≠ 0 → Produces .cond [.sca v, .data r c, e] r c
  | condElse (t r c) : Produces .cond [.sca 0, t, .data r c] r c
  | syrk (r c v) (h : v ≠ 0) : Produces .syrk [.data r c, .sca v] c c
  | createFrame (r : Nat) (n : Nat) : 0 < n → Produces .createFrame (List.replicate n (.data r 1)) r n

/-! ### Proofs -/

theorem fits_nat (n : Nat) : FitsNum n (n : Int) := Or.inr rfl
theorem fits_unknown (n : Nat) : FitsNum n (-1) := Or.inl rfl

theorem allSame_fits {n : Nat} : ∀ {ms : List Int} {z : Int} {b : Bool}, (∀ m ∈ ms, FitsNum n m) → (z = -1 ∨ z = n) → (z = -1 → b = true) →
    ∃ w, allSame z b ms = .ok w ∧ FitsNum n w
  | [], z, b, _, hz, hb => by
    refine ⟨_, rfl, ?_⟩
    cases b with
    | true => exact Or.inl (by simp)
    | false =>
      rcases hz with hz | hz
      · have := hb hz; cases this
      · exact Or.inr (by simp [hz])
  | m :: ms, z, b, hm, hz, hb => by
    have ht : ∀ x ∈ ms, FitsNum n x := fun x hx => hm x (List.mem_cons_of_mem _ hx)
    have h0 := hm m (List.mem_cons_self ..)
    unfold allSame
    by_cases h1 : m = -1
    · rw [if_pos h1]; exact allSame_fits ht hz (fun _ => rfl)
    · rw [if_neg h1]
      have hm' : m = n := h0.resolve_left h1
      by_cases h2 : z = -1
      · rw [if_pos h2]
        exact allSame_fits ht (Or.inr hm') (fun h => by omega)
      · rw [if_neg h2]
        have : ¬ m ≠ z := by have := hz.resolve_left h2; omega
        rw [if_neg this]
        exact allSame_fits ht hz hb

theorem fromAll_fits {n : Nat} {ms : List Int} (hne : ms ≠ []) (h : ∀ m ∈ ms, FitsNum n m) : ∃ w, fromAll ms = .ok w ∧ FitsNum n w := by
  cases ms with
  | nil => exact absurd rfl hne
  | cons m ms =>
    exact allSame_fits (fun x hx => h x (List.mem_cons_of_mem _ hx)) (h m (List.mem_cons_self ..)) (fun e => by simp [e])

theorem fromSum_fits : ∀ {ns : List Nat} {ms : List Int} (a : Nat), List.Forall₂ FitsNum ns ms → FitsNum (a + ns.sum) (fromSum a ms)
  | _, _, a, .nil => by simp [fromSum, FitsNum]
  | n :: ns, m :: ms, a, .cons h t => by
    unfold fromSum
    by_cases h1 : m = -1
    · rw [if_pos h1]; exact Or.inl rfl
    · rw [if_neg h1]
      have hm : m = n := h.resolve_left h1
      have := fromSum_fits (a + n) t
      rw [hm]
      simpa [Nat.add_assoc] using this

theorem fits_replicate {n : Nat} {r : Nat} : ∀ {k : Nat} {args : List CArg}, List.Forall₂ FitsArg (List.replicate k (.data r n)) args →
    (∀ m ∈ args.map CArg.rows, FitsNum r m) ∧ List.Forall₂ FitsNum (List.replicate k n) (args.map CArg.cols) ∧ args.length = k
  | 0, args, h => by
    cases h
    refine ⟨?_, .nil, rfl⟩
    intro m hm
    cases hm
  | k + 1, args, h => by
    rw [List.replicate_succ] at h
    match args, h with
    | x :: xs, .cons h t =>
      obtain ⟨i1, i2, i3⟩ := fits_replicate t
      match x, h with
      | .data r' c', h =>
        refine ⟨?_, ?_, ?_⟩
        · intro m hm
          rcases List.mem_cons.1 hm with e | e
          · subst e; exact h.1
          · exact i1 m e
        · exact .cons h.2 i2
        · simp [i3]

theorem slice_fits {n : Nat} {z : Int} {l u : Int} {lo up : CArg} (hz : FitsNum n z) (hl : FitsArg (.sca l) lo) (hu : FitsArg (.sca u) up)
    (h : Dense.RangeOk l u n) : ∃ w, sliceLen z lo up = .ok w ∧ FitsNum ((Dense.rangeUpper l u n).toNat - (Dense.rangeLower l n).toNat) w := by
  cases lo with
  | data => exact hl.elim
  | sca lo =>
    cases up with
    | data => exact hu.elim
    | sca up =>
      cases lo with
      | none => exact ⟨_, rfl, fits_unknown _⟩
      | some l' =>
        cases up with
        | none => exact ⟨_, rfl, fits_unknown _⟩
        | some u' =>
          have e1 : l = l' := hl l' rfl
          have e2 : u = u' := hu u' rfl
          subst e1; subst e2
          unfold sliceLen
          by_cases h1 : z = -1
          · simp only [h1, if_true]; exact ⟨_, rfl, fits_unknown _⟩
          · have e3 : z = n := hz.resolve_left h1
            simp only [if_neg h1]
            subst e3
            unfold Dense.RangeOk Dense.rangeLower Dense.rangeUpper at h
            have hu' : (if l < 0 then (if u ≤ 0 then u + (n : Int) else u) else if u < 0 then u + n else u) = Dense.rangeUpper l u n := by
              unfold Dense.rangeUpper; split_ifs <;> omega
            have hl' : (if l < 0 then l + (n : Int) else l) = Dense.rangeLower l n := rfl
            simp only [hu', hl']
            have h' : Dense.RangeOk l u n := h
            unfold Dense.RangeOk at h'
            rw [if_neg (by omega), if_neg (by omega), if_neg (by omega)]
            exact ⟨_, rfl, Or.inr (by omega)⟩

/-- Operand lists of known length. -/
theorem fa1 {p : RArg} {args : List CArg} (h : List.Forall₂ FitsArg [p] args) : ∃ x, args = [x] ∧ FitsArg p x := by
  match args, h with
  | [x], .cons h .nil => exact ⟨x, rfl, h⟩
theorem fa2 {p q : RArg} {args : List CArg} (h : List.Forall₂ FitsArg [p, q] args) : ∃ x y, args = [x, y] ∧ FitsArg p x ∧ FitsArg q y := by
  match args, h with
  | [x, y], .cons h (.cons h' .nil) => exact ⟨x, y, rfl, h, h'⟩
theorem fa3 {p q s : RArg} {args : List CArg} (h : List.Forall₂ FitsArg [p, q, s] args) :
    ∃ x y z, args = [x, y, z] ∧ FitsArg p x ∧ FitsArg q y ∧ FitsArg s z := by
  match args, h with
  | [x, y, z], .cons h (.cons h' (.cons h'' .nil)) => exact ⟨x, y, z, rfl, h, h', h''⟩
theorem fa4 {p q s t : RArg} {args : List CArg} (h : List.Forall₂ FitsArg [p, q, s, t] args) :
    ∃ x y z w, args = [x, y, z, w] ∧ FitsArg p x ∧ FitsArg q y ∧ FitsArg s z ∧ FitsArg t w := by
  match args, h with
  | [x, y, z, w], .cons h (.cons h' (.cons h'' (.cons h3 .nil))) => exact ⟨x, y, z, w, rfl, h, h', h'', h3⟩

theorem fits_rows {r c : Nat} {x : CArg} (h : FitsArg (.data r c) x) : FitsNum r x.rows := by
  cases x with
  | data => exact h.1
  | sca => exact h.elim
theorem fits_cols {r c : Nat} {x : CArg} (h : FitsArg (.data r c) x) : FitsNum c x.cols := by
  cases x with
  | data => exact h.2
  | sca => exact h.elim
theorem fits_const {v : Nat} {x : CArg} (h : FitsArg (.sca (v : Int)) x) : FitsNum v x.const := by
  cases x with
  | data => exact h.elim
  | sca w =>
    cases w with
    | none => exact Or.inl rfl
    | some k => exact Or.inr (h k rfl).symm
theorem fits_const_or {v : Int} {n : Nat} {x : CArg} (h : FitsArg (.sca v) x) (hv : v = -1 ∨ v = n) : FitsNum n x.const := by
  cases x with
  | data => exact h.elim
  | sca w =>
    cases w with
    | none => exact Or.inl rfl
    | some k => have := h k rfl; exact hv.imp (fun e => by show k = -1; omega) (fun e => by show k = _; omega)
theorem fits_flag {v : Int} {x : CArg} (h : FitsArg (.sca v) x) : x.flag = none ∨ x.flag = some (v != 0) := by
  cases x with
  | data => exact h.elim
  | sca w =>
    cases w with
    | none => exact Or.inl rfl
    | some k => have := h k rfl; subst this; exact Or.inr rfl

/-- **C148.** Whatever the compiler knows of the operands (numbers of rows and columns, constants), if it is true and the operation accepts the
operands at run time, then the inference reports no error, and every inferred number of rows or columns is the one of the result at run time. -/
theorem C148_shape_inference_sound {op : Op} {args : List CArg} {rargs : List RArg} {R C : Nat} (hf : List.Forall₂ FitsArg rargs args)
    (hp : Produces op rargs R C) :
    ∃ s, inferShape op args = .ok s ∧ FitsNum R s.1 ∧ FitsNum C s.2 := by
  cases hp with
  | fill => obtain ⟨x, y, z, rfl, -, h2, h3⟩ := fa3 hf; exact ⟨_, rfl, fits_const h2, fits_const h3⟩
  | rand =>
    match args, hf with
    | x :: y :: zs, .cons h1 (.cons h2 _) => exact ⟨_, rfl, fits_const h1, fits_const h2⟩
  | sample => obtain ⟨x, y, z, w, rfl, -, h2, -, -⟩ := fa4 hf; exact ⟨_, rfl, fits_const h2, fits_nat 1⟩
  | diagMatrix => obtain ⟨x, rfl, h⟩ := fa1 hf; exact ⟨_, rfl, fits_rows h, fits_rows h⟩
  | ewUnary => obtain ⟨x, rfl, h⟩ := fa1 hf; exact ⟨_, rfl, fits_rows h, fits_cols h⟩
  | ewBinary r' c' r2 c2 hb =>
    obtain ⟨x, y, rfl, h, h'⟩ := fa2 hf
    refine ⟨ewShape x y, rfl, ?_⟩
    have hr := fits_rows h; have hc := fits_cols h
    unfold ewShape
    split_ifs with h1 h2
    · refine ⟨fits_unknown _, ?_⟩
      rw [h1.2.1] at hc; exact hc
    · exact ⟨fits_unknown _, fits_unknown _⟩
    · exact ⟨hr, hc⟩
  | ewBinarySca =>
    obtain ⟨x, y, rfl, h, h'⟩ := fa2 hf
    refine ⟨ewShape x y, rfl, ?_⟩
    have hr := fits_rows h; have hc := fits_cols h
    unfold ewShape
    split_ifs with h1 h2
    · refine ⟨fits_unknown _, ?_⟩
      rw [h1.2.1] at hc; exact hc
    · exact ⟨fits_unknown _, fits_unknown _⟩
    · exact ⟨hr, hc⟩
  | outer => obtain ⟨x, y, rfl, h, h'⟩ := fa2 hf; exact ⟨_, rfl, fits_rows h, fits_cols h'⟩
  | rowAgg => obtain ⟨x, rfl, h⟩ := fa1 hf; exact ⟨_, rfl, fits_rows h, fits_nat 1⟩
  | colAgg => obtain ⟨x, rfl, h⟩ := fa1 hf; exact ⟨_, rfl, fits_nat 1, fits_cols h⟩
  | cumAgg => obtain ⟨x, rfl, h⟩ := fa1 hf; exact ⟨_, rfl, fits_rows h, fits_cols h⟩
  | extractRow => obtain ⟨x, y, rfl, h, h'⟩ := fa2 hf; exact ⟨_, rfl, fits_rows h', fits_cols h⟩
  | insertRow => obtain ⟨x, y, z, w, rfl, h, -⟩ := fa4 hf; exact ⟨_, rfl, fits_rows h, fits_cols h⟩
  | insertCol => obtain ⟨x, y, z, w, rfl, h, -⟩ := fa4 hf; exact ⟨_, rfl, fits_rows h, fits_cols h⟩
  | reshape => obtain ⟨x, y, z, rfl, -, h2, h3⟩ := fa3 hf; exact ⟨_, rfl, fits_const h2, fits_const h3⟩
  | transpose => obtain ⟨x, rfl, h⟩ := fa1 hf; exact ⟨_, rfl, fits_cols h, fits_rows h⟩
  | colBind r c c' =>
    obtain ⟨x, y, rfl, h, h'⟩ := fa2 hf
    obtain ⟨w, hw, hwf⟩ := fromAll_fits (n := R) (ms := [x.rows, y.rows]) (by simp)
      (by intro m hm; simp at hm; rcases hm with e | e <;> subst e; exacts [fits_rows h, fits_rows h'])
    have hs := fromSum_fits 0 (.cons (fits_cols h) (.cons (fits_cols h') .nil))
    refine ⟨(w, fromSum 0 [x.cols, y.cols]), ?_, hwf, by simpa using hs⟩
    show inferTraits [.rowsAll, .colsSum] [x, y] = _
    have : traitsRowsAll [.rowsAll, .colsSum] [x, y] (-1, -1) = .ok (w, -1) := by
      show (fromAll [x.rows, y.rows]).map _ = _
      rw [hw]; rfl
    show (match traitsRowsAll [.rowsAll, .colsSum] [x, y] (-1, -1) with | .error e => _ | .ok s => _) = _
    rw [this]; rfl
  | rowBind r r' c =>
    obtain ⟨x, y, rfl, h, h'⟩ := fa2 hf
    obtain ⟨w, hw, hwf⟩ := fromAll_fits (n := C) (ms := [x.cols, y.cols]) (by simp)
      (by intro m hm; simp at hm; rcases hm with e | e <;> subst e; exacts [fits_cols h, fits_cols h'])
    have hs := fromSum_fits 0 (.cons (fits_rows h) (.cons (fits_rows h') .nil))
    refine ⟨(fromSum 0 [x.rows, y.rows], w), ?_, by simpa using hs, hwf⟩
    show inferTraits [.rowsSum, .colsAll] [x, y] = _
    have : traitsColsAll [.rowsSum, .colsAll] [x, y] (-1, -1) = .ok (-1, w) := by
      show (fromAll [x.cols, y.cols]).map _ = _
      rw [hw]; rfl
    show (match traitsColsAll [.rowsSum, .colsAll] [x, y] (-1, -1) with | .error e => _ | .ok s => _) = _
    rw [this]; rfl
  | reverse => obtain ⟨x, rfl, h⟩ := fa1 hf; exact ⟨_, rfl, fits_rows h, fits_cols h⟩
  | diagVector => obtain ⟨x, rfl, h⟩ := fa1 hf; exact ⟨_, rfl, fits_rows h, fits_nat 1⟩
  | tri => obtain ⟨x, y, z, w, rfl, h, -⟩ := fa4 hf; exact ⟨_, rfl, fits_rows h, fits_cols h⟩
  | solve => obtain ⟨x, y, rfl, h, h'⟩ := fa2 hf; exact ⟨_, rfl, fits_rows h, fits_nat 1⟩
  | replace => obtain ⟨x, y, z, rfl, h, -⟩ := fa3 hf; exact ⟨_, rfl, fits_rows h, fits_cols h⟩
  | gemv => obtain ⟨x, y, rfl, h, h'⟩ := fa2 hf; exact ⟨_, rfl, fits_cols h, fits_nat 1⟩
  | setColLabels =>
    match args, hf with
    | x :: ys, .cons h _ => exact ⟨_, rfl, fits_rows h, fits_cols h⟩
  | cast => obtain ⟨x, rfl, h⟩ := fa1 hf; exact ⟨_, rfl, fits_rows h, fits_cols h⟩
  | castSca =>
    obtain ⟨x, rfl, h⟩ := fa1 hf
    cases x with
    | data => exact h.elim
    | sca => exact ⟨_, rfl, fits_nat 1, fits_nat 1⟩
  | quantize => obtain ⟨x, y, z, rfl, h, -⟩ := fa3 hf; exact ⟨_, rfl, fits_rows h, fits_cols h⟩
  | filterRow => obtain ⟨x, y, rfl, h, -⟩ := fa2 hf; exact ⟨_, rfl, fits_unknown _, fits_cols h⟩
  | filterCol => obtain ⟨x, y, rfl, h, -⟩ := fa2 hf; exact ⟨_, rfl, fits_rows h, fits_unknown _⟩
  | oneHot => obtain ⟨x, y, rfl, h, -⟩ := fa2 hf; exact ⟨_, rfl, fits_rows h, fits_unknown _⟩
  | bin => obtain ⟨x, y, z, w, rfl, h, -⟩ := fa4 hf; exact ⟨_, rfl, fits_rows h, fits_cols h⟩
  | map => obtain ⟨x, rfl, h⟩ := fa1 hf; exact ⟨_, rfl, fits_rows h, fits_cols h⟩
  | matMul r k c r1 c1 r2 c2 ta tb h1 h2 =>
    obtain ⟨x, y, z, w, rfl, hx, hy, hz, hw⟩ := fa4 hf
    refine ⟨_, rfl, ?_, ?_⟩
    · show FitsNum R (match z.flag with | some b => if b then x.cols else x.rows | none => -1)
      rcases fits_flag hz with e | e <;> rw [e]
      · exact fits_unknown _
      · by_cases ht : ta = 0
        · rw [if_pos ht] at h1; cases h1
          simpa [ht] using fits_rows hx
        · rw [if_neg ht] at h1; cases h1
          simpa [ht] using fits_cols hx
    · show FitsNum C (match w.flag with | some b => if b then y.rows else y.cols | none => -1)
      rcases fits_flag hw with e | e <;> rw [e]
      · exact fits_unknown _
      · by_cases ht : tb = 0
        · rw [if_pos ht] at h2; cases h2
          simpa [ht] using fits_cols hy
        · rw [if_neg ht] at h2; cases h2
          simpa [ht] using fits_rows hy
  | order =>
    obtain ⟨x, y, rfl, hx, hy⟩ := fa2 hf
    refine ⟨_, rfl, fits_rows hx, ?_⟩
    show FitsNum C (match y.flag with | some b => if b then 1 else x.cols | none => -1)
    rcases fits_flag hy with e | e <;> rw [e]
    · exact fits_unknown _
    · simpa using fits_cols hx
  | orderIdxs r c v hv =>
    obtain ⟨x, y, rfl, hx, hy⟩ := fa2 hf
    refine ⟨_, rfl, fits_rows hx, ?_⟩
    show FitsNum 1 (match y.flag with | some b => if b then 1 else x.cols | none => -1)
    rcases fits_flag hy with e | e <;> rw [e]
    · exact fits_unknown _
    · simpa [hv] using fits_nat 1
  | ctable r w R C kr kc hr hc =>
    match args, hf with
    | [a, b, x, y, z], .cons _ (.cons _ (.cons _ (.cons h1 (.cons h2 .nil)))) => exact ⟨_, rfl, fits_const_or h1 hr, fits_const_or h2 hc⟩
  | sliceRow r c l u h =>
    obtain ⟨x, y, z, rfl, hx, hy, hz⟩ := fa3 hf
    obtain ⟨w, hw, hwf⟩ := slice_fits (fits_rows hx) hy hz h
    refine ⟨(w, x.cols), ?_, hwf, fits_cols hx⟩
    show (sliceLen x.rows y z).map _ = _
    rw [hw]; rfl
  | sliceCol r c l u h =>
    obtain ⟨x, y, z, rfl, hx, hy, hz⟩ := fa3 hf
    obtain ⟨w, hw, hwf⟩ := slice_fits (fits_cols hx) hy hz h
    refine ⟨(x.rows, w), ?_, fits_rows hx, hwf⟩
    show (sliceLen x.cols y z).map _ = _
    rw [hw]; rfl
  | extractCol => obtain ⟨x, y, rfl, h, h'⟩ := fa2 hf; exact ⟨_, rfl, fits_rows h, fits_rows h'⟩
  | extractLabel =>
    obtain ⟨x, y, rfl, h, h'⟩ := fa2 hf
    cases y with
    | data => exact h'.elim
    | sca => exact ⟨_, rfl, fits_rows h, fits_nat 1⟩
  | condMat r c t e =>
    obtain ⟨x, y, z, rfl, h, -⟩ := fa3 hf
    cases x with
    | data => exact ⟨_, rfl, h.1, h.2⟩
    | sca => exact h.elim
  | condThen v r c e hv =>
    obtain ⟨x, y, z, rfl, h, h', h''⟩ := fa3 hf
    cases x with
    | data => exact h.elim
    | sca w =>
      refine ⟨_, rfl, ?_⟩
      show FitsNum R (condShape (.sca w) y z).1 ∧ FitsNum C (condShape (.sca w) y z).2
      cases y with
      | sca => exact h'.elim
      | data r1 c1 =>
        cases z with
        | sca => exact ⟨fits_unknown _, fits_unknown _⟩
        | data r2 c2 =>
          refine ⟨?_, ?_⟩
          · show FitsNum R (if r1 = r2 then r1 else -1)
            split
            · exact h'.1
            · exact fits_unknown _
          · show FitsNum C (if c1 = c2 then c1 else -1)
            split
            · exact h'.2
            · exact fits_unknown _
  | condElse t r c =>
    obtain ⟨x, y, z, rfl, h, h', h''⟩ := fa3 hf
    cases x with
    | data => exact h.elim
    | sca w =>
      refine ⟨_, rfl, ?_⟩
      show FitsNum R (condShape (.sca w) y z).1 ∧ FitsNum C (condShape (.sca w) y z).2
      cases z with
      | sca => exact h''.elim
      | data r2 c2 =>
        cases y with
        | sca => exact ⟨fits_unknown _, fits_unknown _⟩
        | data r1 c1 =>
          refine ⟨?_, ?_⟩
          · show FitsNum R (if r1 = r2 then r1 else -1)
            split
            · next e => rw [e]; exact h''.1
            · exact fits_unknown _
          · show FitsNum C (if c1 = c2 then c1 else -1)
            split
            · next e => rw [e]; exact h''.2
            · exact fits_unknown _
  | syrk => obtain ⟨x, y, rfl, h, h'⟩ := fa2 hf; exact ⟨_, rfl, fits_cols h, fits_cols h⟩
  | createFrame r n hn =>
    obtain ⟨i1, i2, i3⟩ := fits_replicate hf
    obtain ⟨w, hw, hwf⟩ := fromAll_fits (n := R) (ms := args.map CArg.rows)
      (by intro e; have := congrArg List.length e; simp at this; subst this; simp at i3; omega) i1
    have hs := fromSum_fits 0 i2
    refine ⟨(w, fromSum 0 (args.map CArg.cols)), ?_, hwf, by simpa using hs⟩
    show (fromAll (args.map CArg.rows)).map _ = _
    rw [hw]; rfl

/-- **C148 (user's view).** If the inference of the shape of X succeeds with true knowledge of the operands, then nrow(X), ncol(X) and ncell(X)
are replaced by constants only if these are the numbers at run time. -/
theorem C148_constants_right {op : Op} {args : List CArg} {rargs : List RArg} {R C : Nat} (hf : List.Forall₂ FitsArg rargs args)
    (hp : Produces op rargs R C) {s : Int × Int} (hs : inferShape op args = .ok s) (k : Int) :
    (foldNumRows s = some k → k = R) ∧ (foldNumCols s = some k → k = C) ∧ (foldNumCells s = some k → k = R * C) := by
  obtain ⟨s', h1, h2, h3⟩ := C148_shape_inference_sound hf hp
  rw [hs] at h1; cases h1
  unfold foldNumRows foldNumCols foldNumCells
  refine ⟨?_, ?_, ?_⟩
  · split
    · next h => intro e; cases e; exact h2.resolve_left h
    · intro e; cases e
  · split
    · next h => intro e; cases e; exact h3.resolve_left h
    · intro e; cases e
  · split
    · next h => intro e; cases e; rw [h2.resolve_left h.1, h3.resolve_left h.2]
    · intro e; cases e

/-! ### The shapes of the specification are those of the kernels -/

section Kernels
open Dense Shape
variable {α : Type}

/-- **C148 (link to the kernels).** For the kernels that are modelled elsewhere, every successful call has a result of the shape that the
specification `Produces` gives, and whenever the kernel accepts its arguments, `Produces` has such a shape. -/
theorem C148_kernel_shapes (junk : Nat → α) (x y : DM α) (a b : Mat α) (hx : x.Is a) (hy : y.Is b) :
    (Res.Ok (Dense.transpose junk x) fun z => Produces .transpose [.data a.rows a.cols] z.numRows z.numCols) ∧
    (a.rows = b.rows → Res.Ok (Dense.colBind junk x y) fun z => Produces .colBind [.data a.rows a.cols, .data b.rows b.cols] z.numRows z.numCols) ∧
    (∀ l u, Dense.RangeOk l u a.rows → Res.Ok (Dense.sliceRow x l u) fun z =>
      Produces .sliceRow [.data a.rows a.cols, .sca l, .sca u] z.numRows z.numCols) ∧
    (∀ l u, Dense.RangeOk l u a.cols → Res.Ok (Dense.sliceCol x l u) fun z =>
      Produces .sliceCol [.data a.rows a.cols, .sca l, .sca u] z.numRows z.numCols) ∧
    (∀ R C : Nat, R * C = a.rows * a.cols → Res.Ok (Shape.reshapeDense junk x R C) fun z =>
      Produces .reshape [.data a.rows a.cols, .sca R, .sca C] z.numRows z.numCols) ∧
    (0 < a.cols → Res.Ok (Shape.reverseDense junk x) fun z => Produces .reverse [.data a.rows a.cols] z.numRows z.numCols) ∧
    (∀ zero, a.cols = 1 → Res.Ok (Shape.diagMatrixDense zero x) fun z => Produces .diagMatrix [.data a.rows a.cols] z.numRows z.numCols) ∧
    (a.rows = a.cols ∧ 0 < a.rows → Res.Ok (Shape.diagVectorDense junk x) fun z => Produces .diagVector [.data a.rows a.cols] z.numRows z.numCols) ∧
    (∀ (v : α) (R C : Nat), Res.Ok (Shape.fillDense v R C junk) fun z => Produces .fill [.sca 0, .sca R, .sca C] z.numRows z.numCols) ∧
    (∀ f : α → α → α, a.cols = 1 ∧ b.rows = 1 → Res.Ok (Shape.outerBinary f x y junk) fun z =>
      Produces .outer [.data a.rows a.cols, .data b.rows b.cols] z.numRows z.numCols) ∧
    (∀ f : α → α, Res.Ok (Shape.castDense f x junk) fun z => Produces .cast [.data a.rows a.cols] z.numRows z.numCols) := by
  have cv : ∀ {z : DM α} {m : Mat α} {op args R C}, z.Is m → m.rows = R → m.cols = C → Produces op args R C →
      Produces op args z.numRows z.numCols := by
    intro z m op args R C hz h1 h2 hp
    have e1 : z.numRows = m.rows := hz.rows
    have e2 : z.numCols = m.cols := hz.cols
    rw [e1, e2, h1, h2]; exact hp
  refine ⟨?_, ?_, ?_, ?_, ?_, ?_, ?_, ?_, ?_, ?_, ?_⟩
  · exact (Dense.C25_transpose junk x a hx).mono fun z hz => cv hz rfl rfl (.transpose ..)
  · intro h
    refine ((Dense.C21_colBind junk x y a b hx hy).1 h).mono fun z hz => cv hz rfl rfl ?_
    rw [← h]; exact .colBind ..
  · intro l u h
    exact ((Dense.C20_sliceRow x a hx l u).1 h).mono fun z hz => cv hz rfl (Nat.sub_zero _) (.sliceRow _ _ _ _ h)
  · intro l u h
    exact ((Dense.C20_sliceCol x a hx l u).1 h).mono fun z hz => cv hz (Nat.sub_zero _) rfl (.sliceCol _ _ _ _ h)
  · intro R C h
    exact ((Shape.C88_reshape junk x a hx R C).1 h).mono fun z hz => cv hz rfl rfl (.reshape _ _ _ _ h)
  · intro h
    exact (Shape.C91_reverse junk x a hx h).mono fun z hz => cv hz rfl rfl (.reverse ..)
  · intro zero h
    refine ((Shape.C94_diagMatrix zero x a hx).1 h).mono fun z hz => cv hz rfl rfl ?_
    rw [h]; exact .diagMatrix _
  · intro h
    refine ((Shape.C94_diagVector junk x a hx).1 h).mono fun z hz => cv hz rfl rfl ?_
    rw [← h.1]; exact .diagVector _
  · intro v R C
    exact (Shape.C95_fill v R C junk).mono fun z hz => cv hz rfl rfl (.fill ..)
  · intro f h
    refine ((Shape.C97_outerBinary f x y a b hx hy junk).1 h).mono fun z hz => cv hz rfl rfl ?_
    rw [h.1, h.2]; exact .outer ..
  · intro f
    exact (Shape.C102_cast_dense f x a hx junk).mono fun z hz => cv hz rfl rfl (.cast ..)

end Kernels

/-! ### Sequences -/

/-- SeqOp::inferNumRows for si64 — 160-170: the bounds and the increment, if they are constants. An increment of 0 is an integer division by zero in the
compiler (`none`). -/
def seqRows (start fin inc : Option Int) : Option Int :=
  match start, fin, inc with
  | some s, some f, some i => if i = 0 then none else some (((f - s).natAbs / i.natAbs + 1 : Nat) : Int)
  | _, _, _ => some (-1)

theorem seqRows_some (s f i : Int) :
    seqRows (some s) (some f) (some i) = if i = 0 then none else some (((f - s).natAbs / i.natAbs + 1 : Nat) : Int) := rfl

/-- **C149.** The number of rows inferred for an integer sequence is right, if the increment is not 0 and leads from the first towards the last value. -/
theorem C149_seq_rows (start fin inc : Int) (junk : Nat → Int) (h0 : inc ≠ 0) (hd : 0 ≤ (fin - start) * inc) (cs cf ci : Option Int)
    (hs : ∀ k, cs = some k → start = k) (hf : ∀ k, cf = some k → fin = k) (hi : ∀ k, ci = some k → inc = k) :
    ∃ z, seqRows cs cf ci = some z ∧ Res.Ok (Shape.seqInt start fin inc junk) fun y => FitsNum y.numRows z ∧ y.numCols = 1 := by
  obtain ⟨n, h1, h2⟩ := (Shape.C96_seq start fin inc junk).2 h0
  have unk : Res.Ok (Shape.seqInt start fin inc junk) fun y => FitsNum y.numRows (-1) ∧ y.numCols = 1 :=
    h1.mono fun y hy => ⟨fits_unknown _, hy.cols⟩
  cases cs with
  | none => exact ⟨_, rfl, unk⟩
  | some s =>
    cases cf with
    | none => exact ⟨_, rfl, unk⟩
    | some f =>
      cases ci with
      | none => exact ⟨_, rfl, unk⟩
      | some i =>
        obtain rfl := hs s rfl
        obtain rfl := hf f rfl
        obtain rfl := hi i rfl
        refine ⟨((fin - start).natAbs / inc.natAbs + 1 : Nat), by rw [seqRows_some, if_neg h0], ?_⟩
        refine h1.mono fun y hy => ⟨Or.inr ?_, hy.cols⟩
        have e : y.numRows = n := hy.rows
        rw [e]
        congr 1
        -- both numbers have the same elements below them
        have hpos : 0 < inc.natAbs := by omega
        have key : ∀ k : Nat, k < n ↔ k < (fin - start).natAbs / inc.natAbs + 1 := by
          intro k
          rw [h2 k, Nat.lt_succ_iff, Nat.le_div_iff_mul_le hpos]
          have e1 : (((k * inc.natAbs : Nat)) : Int) = k * |inc| := by push_cast; rfl
          by_cases hp : 0 < inc
          · rw [if_pos hp]
            have hge : 0 ≤ fin - start := by
              by_contra hc
              have := mul_neg_of_neg_of_pos (show fin - start < 0 by omega) hp
              omega
            rw [abs_of_pos hp] at e1
            generalize (k : Int) * inc = q at *
            omega
          · rw [if_neg hp]
            have hneg : inc < 0 := by omega
            have hge : fin - start ≤ 0 := by
              by_contra hc
              have := mul_neg_of_pos_of_neg (show 0 < fin - start by omega) hneg
              omega
            rw [abs_of_neg hneg, mul_neg] at e1
            generalize (k : Int) * inc = q at *
            omega
        have k1 := key n
        have k2 := key ((fin - start).natAbs / inc.natAbs + 1)
        omega

/-- **C150 (refuted).** Full statement: also otherwise. But for an increment of the wrong direction the sequence is empty, while at least two rows are
inferred; for an increment of 0 the compiler divides by zero. -/
theorem C150_seq_rows_wrong_direction_partial (start fin inc : Int) (junk : Nat → Int) (hd : (fin - start) * inc < 0) :
    (∃ z : Nat, 1 ≤ z ∧ seqRows (some start) (some fin) (some inc) = some (z : Int) ∧
      Res.Ok (Shape.seqInt start fin inc junk) fun y => y.numRows = 0 ∧ ¬ FitsNum y.numRows z) ∧
    seqRows (some start) (some fin) (some 0) = none := by
  have h0 : inc ≠ 0 := by rintro rfl; simp at hd
  refine ⟨⟨(fin - start).natAbs / inc.natAbs + 1, Nat.succ_le_succ (Nat.zero_le _), by rw [seqRows_some, if_neg h0], ?_⟩,
    by rw [seqRows_some, if_pos rfl]⟩
  obtain ⟨n, h1, h2⟩ := (Shape.C96_seq start fin inc junk).2 h0
  refine h1.mono fun y hy => ?_
  have e : y.numRows = n := hy.rows
  have hn : ¬ 0 < n := by
    rw [h2 0]
    by_cases hp : 0 < inc
    · rw [if_pos hp]
      have : fin - start < 0 := by
        by_contra hc
        have := mul_nonneg (show 0 ≤ fin - start by omega) (le_of_lt hp)
        omega
      simp; omega
    · rw [if_neg hp]
      have : 0 < fin - start := by
        by_contra hc
        have := mul_nonneg_of_nonpos_of_nonpos (show fin - start ≤ 0 by omega) (show inc ≤ 0 by omega)
        omega
      simp; omega
  have : y.numRows = 0 := by omega
  refine ⟨this, ?_⟩
  rw [this]
  generalize (fin - start).natAbs / inc.natAbs = q
  rintro (h | h) <;> · push_cast at h; omega

/-- **C151 (refuted).** Full statement: the number of rows inferred for a Cartesian product is right or unknown. It is right if both numbers are
known; if none is known, `nrow` of the product is replaced by 1; if one is, by the negated other number. -/
theorem C151_cartesian_rows_partial (r1 c1 r2 c2 : Nat) :
    (∀ k1 k2, FitsNum c1 k1 → FitsNum c2 k2 → ∃ s, inferShape .cartesian [.data r1 k1, .data r2 k2] = .ok s ∧ s.1 = (r1 * r2 : Nat) ∧
      FitsNum (c1 + c2) s.2) ∧
    (∀ k1 k2, ∃ s, inferShape .cartesian [.data (-1) k1, .data (-1) k2] = .ok s ∧ foldNumRows s = some 1) ∧
    (∀ k1 k2, r2 ≠ 1 → ∃ s, inferShape .cartesian [.data (-1) k1, .data r2 k2] = .ok s ∧ foldNumRows s = some (-(r2 : Int))) := by
  refine ⟨fun k1 k2 h1 h2 => ?_, fun k1 k2 => ⟨_, rfl, rfl⟩, fun k1 k2 h => ?_⟩
  · refine ⟨((r1 : Int) * r2, fromSum 0 [k1, k2]), rfl, by push_cast; rfl, ?_⟩
    have hs := fromSum_fits 0 (.cons h1 (.cons h2 .nil))
    simpa using hs
  · refine ⟨(-1 * (r2 : Int), fromSum 0 [k1, k2]), rfl, ?_⟩
    unfold foldNumRows
    rw [if_pos (by simp; omega)]; simp

/-- **C152 (refuted).** Full statement: the shape inferred for an operation on a scalar and a matrix is that of the matrix or unknown. It is 1×1 whenever
the shape of the matrix is known; the rewrite of `a + X` to `X + a` (Canonicalize.cpp:262-407, C131-C134) keeps the type. So in a function with
untyped parameters, where the shape is inferred before the rewrite, `nrow(a + X)` is 1 for every X with more rows. -/
theorem C152_scalar_left_partial (v : Option Int) (r c : Nat) (h : 1 < r) :
    ∃ s, inferShape .ewBinary [.sca v, .data r c] = .ok s ∧ foldNumRows s = some 1 ∧ foldNumCols s = some 1 ∧ ¬ FitsNum r s.1 := by
  have hr : ¬ ((r : Int) = -1 ∨ (c : Int) = -1) := by omega
  have : ewShape (.sca v) (.data r c) = (1, 1) := by
    unfold ewShape
    rw [if_neg (by simp [CArg.rows]), if_neg (by exact hr)]; rfl
  refine ⟨(1, 1), ?_, rfl, rfl, ?_⟩
  · show Except.ok (ewShape (.sca v) (.data r c)) = _
    rw [this]
  · rintro (h' | h')
    · cases h'
    · simp at h'; omega

/-- **C153 (refuted).** Full statement: the shapes inferred for `X @ t(X)` as a syrk operation, and for the conversions between position lists and bitmaps,
are right or unknown. They are those of `t(X) @ X`, and of the argument. -/
theorem C153_other_shapes_partial (r c n : Nat) :
    (r ≠ c → ∃ s, inferShape .syrk [.data r c, .sca (some 0)] = .ok s ∧ ¬ FitsNum r s.1) ∧
    (n ≠ r → ∃ s, inferShape .posListToBitmap [.data r 1, .sca (some n)] = .ok s ∧ ¬ FitsNum n s.1) ∧
    (n < r → ∃ s, inferShape .bitmapToPosList [.data r 1] = .ok s ∧ ¬ FitsNum n s.1) := by
  refine ⟨fun h => ⟨((c : Int), (c : Int)), rfl, ?_⟩, fun h => ⟨((r : Int), 1), rfl, ?_⟩, fun h => ⟨((r : Int), 1), rfl, ?_⟩⟩
  all_goals rintro (h' | h') <;> · simp only at h'; omega

/-! ### Concrete cases -/

/-- A 5-row matrix with unknown width, sliced to its last three rows; the number of rows is found. -/
example : List.Forall₂ FitsArg [.data 5 7, .sca (-3), .sca 0] [.data 5 (-1), .sca (some (-3)), .sca (some 0)] ∧
    Produces .sliceRow [.data 5 7, .sca (-3), .sca 0] 3 7 ∧
    inferShape .sliceRow [.data 5 (-1), .sca (some (-3)), .sca (some 0)] = .ok (3, -1) :=
  ⟨.cons ⟨Or.inr rfl, Or.inl rfl⟩ (.cons (fun _ h => by cases h; rfl) (.cons (fun _ h => by cases h; rfl) .nil)),
    .sliceRow 5 7 (-3) 0 (by unfold Dense.RangeOk; decide), rfl⟩

/-- Binding columns of 4 rows and of an unknown number of rows. -/
example : inferShape .colBind [.data 4 2, .data (-1) 3] = .ok (-1, 5) ∧ inferShape .colBind [.data 4 2, .data 4 3] = .ok (4, 5) ∧
    (∃ e, inferShape .colBind [.data 4 2, .data 5 3] = .error e) := ⟨rfl, rfl, _, rfl⟩

example : seqRows (some 10) (some 1) (some (-4)) = some 3 ∧ seqRows (some 1) (some 10) (some (-4)) = some 3 := ⟨rfl, rfl⟩

end Verif.Infer

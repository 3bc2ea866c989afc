/-
  Choosing and calling pre-compiled kernels: `src/compiler/catalog/KernelCatalog.h`, `src/parser/catalog/KernelCatalogParser.cpp`,
  `src/compiler/lowering/RewriteToCallKernelOpPass.cpp` (`KernelReplacement`), `src/compiler/inference/AdaptTypesToKernelsPass.cpp`,
  `src/compiler/utils/CompilerUtils.h` (type names, value types), `src/util/KernelDispatchMapping.cpp`.

  Simplifications: an exception is `none`; an MLIR value is a number with a type; the agg-function and comparison packs of `GroupOp`/`ThetaJoinOp`, the
  signless result of `ConvertDenseMatrixToMemRef` and `DistributedComputeOp` (no kernel registered) are left out; index into the kernel list does not overflow `int`.
-/
import Mathlib.Data.List.Basic
import Mathlib.Data.Rat.Defs

namespace Verif.Disp

/-- Value types — KernelCatalogParser.cpp:40-50; `unknown` is DaphneIR's unknown type. -/
inductive Vt where
  | f64 | f32 | si64 | si32 | si8 | ui64 | ui32 | ui8 | i1 | index | string | unknown
  deriving DecidableEq, Repr

/-- `MatrixRepresentation`. -/
inductive Rep where
  | dense | sparse
  deriving DecidableEq, Repr

/-- MLIR types as far as kernels see them. A shape, sparsity, symmetry or label list may be unknown. -/
inductive Ty where
  | sca (v : Vt)
  | matrix (v : Vt) (rows cols : Option Nat) (sp : Option ℚ) (rep : Rep) (sym : Option Bool)
  | frame (cts : List Vt) (rows cols : Option Nat) (labels : Option (List String))
  | column (v : Vt) (rows : Option Nat)
  | list (e : Ty)
  | memref (shape : List (Option Nat)) (v : Vt) (layout : Nat)
  | struct
  | context
  | file | descriptor | target
  deriving DecidableEq

/-- The test of `generalizeToStructure` — KernelCatalog.h:138-139. -/
def isObj : Ty → Bool
  | .matrix .. | .frame .. | .column .. | .list _ => true
  | _ => false

/-- `normalizeTypeForKernelLookup` — KernelCatalog.h:136-167. -/
def norm (gen : Bool) (t : Ty) : Option Ty :=
  if gen && isObj t then some .struct
  else
    match t with
    | .matrix v _ _ _ rep _ => some (.matrix v none none none rep none)
    | .frame .. => some (.frame [.unknown] none none none)
    | .column v _ => some (.column v none)
    | .list e => (norm gen e).map .list
    | .memref s v _ =>
      if s.length = 1 then some (.memref [none] v 0)
      else if s.length = 2 then some (.memref [none, none] v 0)
      else none
    | t => some t

/-- `KernelInfo` — KernelCatalog.h:33-82. -/
structure Kernel where
  name : List Char
  res : List Ty
  args : List Ty
  backend : List Char
  lib : List Char
  prio : ℤ
  deriving DecidableEq

/-- `kernelInfosByOp` — KernelCatalog.h:95. -/
abbrev Catalog := List (List Char × List Kernel)

/-- `registerKernel` — KernelCatalog.h:176-178. -/
def register : Catalog → List Char → Kernel → Catalog
  | [], op, k => [(op, [k])]
  | (o, ks) :: c, op, k => if o = op then (o, ks ++ [k]) :: c else (o, ks) :: register c op k

/-- `getKernelInfos` — KernelCatalog.h:188-194. -/
def kernelInfos : Catalog → List Char → List Kernel
  | [], _ => []
  | (o, ks) :: c, op => if o = op then ks else kernelInfos c op

/-- The comparison of two type vectors position by position, after the sizes were found to be equal — KernelCatalog.h:227-237. -/
def sameTys : List Ty → List Ty → Bool
  | a :: as, b :: bs => if a ≠ b then false else sameTys as bs
  | _, _ => true

/-- Does the search skip this kernel? — KernelCatalog.h:221-237. -/
def fits (args res : List Ty) (backend : List Char) (k : Kernel) : Bool :=
  if k.backend ≠ backend then false
  else if args.length ≠ k.args.length then false
  else if res.length ≠ k.res.length then false
  else sameTys args k.args && sameTys res k.res

/-- The loop of `findKernel`: position, kernels left, chosen position (`-1` at first) and its priority — KernelCatalog.h:219-242. -/
def findLoop (args res : List Ty) (backend : List Char) : Nat → List Kernel → ℤ → ℤ → ℤ
  | _, [], idx, _ => idx
  | i, k :: ks, idx, prio =>
    if fits args res backend k && (k.prio > prio || idx = -1) then findLoop args res backend (i + 1) ks i k.prio
    else findLoop args res backend (i + 1) ks idx prio

/-- `findKernel` — KernelCatalog.h:205-248. -/
def findKernel (c : Catalog) (op : List Char) (args res : List Ty) (backend : List Char) : Option Kernel :=
  let ks := kernelInfos c op
  let idx := findLoop args res backend 0 ks (-1) (-2 ^ 63)
  if idx = -1 then none else ks[idx.toNat]?

/-- `getLibPaths` — KernelCatalog.h:331-341. -/
def libPaths (c : Catalog) : List (List Char × Bool) := c.flatMap fun e => e.2.map fun k => (k.lib, false)

/-- `std::unordered_map::at(…) = true`, which throws for an absent key. -/
def markUsed (libs : List (List Char × Bool)) (l : List Char) : Option (List (List Char × Bool)) :=
  if libs.any (fun e => e.1 = l) then some (libs.map fun e => if e.1 = l then (l, true) else e) else none

/-! ### Kernel ids -/

/-- A source location of an operation: file, line, column. -/
structure Loc where
  file : String
  line : Nat
  col : Nat
  deriving DecidableEq

/-- `KernelDispatchMapping`: the counter, the mapping and the last location (a null one at first) — KernelDispatchMapping.h. -/
structure Mapping where
  counter : Nat
  infos : List (Nat × (List Char × Loc))
  cur : Option Loc

/-- The state of the singleton before any registration. -/
def Mapping.empty : Mapping := ⟨1, [], none⟩

/-- `registerKernel`: an operation without a file location gets the last one seen; reading the null location is undefined (`none`) —
KernelDispatchMapping.cpp:27-38. -/
def Mapping.register (m : Mapping) (name : List Char) (loc : Option Loc) : Option (Nat × Mapping) :=
  match loc with
  | some l => some (m.counter, ⟨m.counter + 1, (m.counter, (name, l)) :: m.infos, some l⟩)
  | none =>
    match m.cur with
    | some l => some (m.counter, ⟨m.counter + 1, (m.counter, (name, l)) :: m.infos, m.cur⟩)
    | none => none

/-- `getKernelDispatchInfo`: `at` throws for an unknown id — KernelDispatchMapping.cpp:40-45. -/
def Mapping.info (m : Mapping) (kId : Nat) : Option (List Char × Loc) :=
  if kId = 0 then some (['N', 'o', 'n', 'I', 'n', 's', 't', 'r', 'u', 'm', 'e', 'n', 't', 'e', 'd', 'O', 'p'], ⟨"unknkown", 0, 0⟩)
  else (m.infos.find? (fun e => e.1 = kId)).map (·.2)

/-! ### Rewriting operations to kernel calls -/

/-- An MLIR value. -/
structure Val where
  id : Nat
  ty : Ty
  deriving DecidableEq

/-- An argument of `CallKernelOp`: a value, a variadic pack (element type and slots), a constant of type index, the kernel id, the context. -/
inductive Arg where
  | val (v : Val)
  | pack (ty : Ty) (slots : List (Option Val))
  | size (n : Nat)
  | kId (n : Nat)
  | ctx
  deriving DecidableEq

/-- A DaphneIR operation to lower. `ods` are the sizes of its ODS operands and whether they are variadic, for operations with variadic ones. -/
structure Op where
  mnemonic : List Char
  operands : List Val
  results : List Ty
  ods : Option (List (Nat × Bool))
  hint : Option (List Char)
  cuda : Bool
  fpga : Bool
  loc : Option Loc

/-- Operations whose object arguments are passed as `Structure` — RewriteToCallKernelOpPass.cpp:191-194. -/
def generalizes (op : List Char) : Bool :=
  op ∈ [['c', 'r', 'e', 'a', 't', 'e', 'F', 'r', 'a', 'm', 'e'], ['d', 'i', 's', 't', 'r', 'i', 'b', 'u', 't', 'e', 'd', 'C', 'o', 'm', 'p', 'u', 't', 'e'], ['n', 'u', 'm', 'C', 'e', 'l', 'l', 's'], ['n', 'u', 'm', 'C', 'o', 'l', 's'], ['n', 'u', 'm', 'R', 'o', 'w', 's'], ['i', 'n', 'c', 'R', 'e', 'f'], ['d', 'e', 'c', 'R', 'e', 'f']]

/-- The pack: created with `len` slots, then filled by one store per occurrence — RewriteToCallKernelOpPass.cpp:261-266. -/
def fillPack (operands : List Val) (idx len : Nat) : Option (List (Option Val)) :=
  (List.range len).foldlM (fun slots k => (operands[idx + k]?).map fun v => slots.set k (some v)) (List.replicate len none)

/-- The type of an ODS operand: that of its first occurrence; without occurrences only known for the last one of a `GroupOp` —
RewriteToCallKernelOpPass.cpp:224-254. -/
def odsTy (op : Op) (i idx len : Nat) : Option Ty :=
  if len > 0 then (op.operands[idx]?).map (·.ty)
  else if op.mnemonic = ['g', 'r', 'o', 'u', 'p'] ∧ i = 2 then some (.sca .string)
  else none

/-- The loop over the ODS operands: look-up types and kernel arguments; `idx` is the first operand of the current one —
RewriteToCallKernelOpPass.cpp:217-274. -/
def odsLoop (op : Op) : Nat → Nat → List (Nat × Bool) → Option (List Ty × List Arg)
  | _, _, [] => some ([], [])
  | i, idx, (len, var) :: rest => do
    let t ← odsTy op i idx len
    let lt ← norm (generalizes op.mnemonic) t
    if var then
      let slots ← fillPack op.operands idx len
      let r ← odsLoop op (i + 1) (idx + len) rest
      some (lt :: .sca .index :: r.1, .pack t slots :: .size len :: r.2)
    else
      let v ← op.operands[idx]?
      let r ← odsLoop op (i + 1) (idx + len) rest
      some (lt :: r.1, .val v :: r.2)

/-- Look-up types and kernel arguments for the operands — RewriteToCallKernelOpPass.cpp:204-282. -/
def lookupArgs (op : Op) : Option (List Ty × List Arg) :=
  match op.ods with
  | some s => odsLoop op 0 0 s
  | none => (op.operands.mapM fun v => norm (generalizes op.mnemonic) v.ty).map fun ts => (ts, op.operands.map .val)

/-- The backend an operation was marked for — RewriteToCallKernelOpPass.cpp:406-412. -/
def backendOf (op : Op) : List Char := if op.cuda then ['C', 'U', 'D', 'A'] else if op.fpga then ['F', 'P', 'G', 'A', 'O', 'P', 'E', 'N', 'C', 'L'] else ['C', 'P', 'P']

/-- The kernel and its library: the first kernel of the hinted name, or the result of the search — RewriteToCallKernelOpPass.cpp:370-421. -/
def choose (c : Catalog) (op : Op) (args res : List Ty) : Option (List Char × List Char) :=
  match op.hint with
  | some h => ((kernelInfos c op.mnemonic).find? fun k => k.name = h).map fun k => (h, k.lib)
  | none => (findKernel c op.mnemonic args res (backendOf op)).map fun k => (k.name, k.lib)

/-- The arguments added after the operands: kernel id and context — RewriteToCallKernelOpPass.cpp:424-442. -/
def tailArgs (op : List Char) (kId : Nat) : List Arg :=
  (if op = ['c', 'r', 'e', 'a', 't', 'e', 'D', 'a', 'p', 'h', 'n', 'e', 'C', 'o', 'n', 't', 'e', 'x', 't'] ∨ op = ['d', 'e', 's', 't', 'r', 'o', 'y', 'D', 'a', 'p', 'h', 'n', 'e', 'C', 'o', 'n', 't', 'e', 'x', 't'] then [] else [.kId kId]) ++
    (if op = ['c', 'r', 'e', 'a', 't', 'e', 'D', 'a', 'p', 'h', 'n', 'e', 'C', 'o', 'n', 't', 'e', 'x', 't'] then [] else [.ctx])

/-- A `CallKernelOp`. -/
structure Call where
  callee : List Char
  args : List Arg
  res : List Ty

/-- What the pass changes besides the IR: the used libraries and the dispatch mapping. -/
structure St where
  libs : List (List Char × Bool)
  map : Mapping

/-- `matchAndRewrite` — RewriteToCallKernelOpPass.cpp:159-455. -/
def rewriteOp (c : Catalog) (s : St) (op : Op) : Option (Call × St) := do
  let lres ← op.results.mapM (norm false)
  let la ← lookupArgs op
  let k ← choose c op la.1 lres
  let reg ← s.map.register k.1 op.loc
  let libs ← markUsed s.libs k.2
  some (⟨k.1, la.2 ++ tailArgs op.mnemonic reg.1, op.results⟩, ⟨libs, reg.2⟩)

/-- `CreateListOp::inferTypes`, for operands of known type: all are matrices, and equal once everything but the value type is dropped —
DaphneInferTypesOpInterface.cpp:702-735. -/
def inferList : List Ty → Option Ty → Option Ty
  | [], r => r.map .list
  | .matrix v _ _ _ _ _ :: ts, none => inferList ts (some (.matrix v none none none .dense none))
  | .matrix v _ _ _ _ _ :: ts, some r => if r ≠ .matrix v none none none .dense none then none else inferList ts (some r)
  | _ :: _, _ => none

/-! ### C++ type names in kernel catalogs -/

/-- Names of value types — CompilerUtils.h:169-188; `char` stands for a string scalar (l. 232-236). -/
def vtName : Vt → Option (List Char)
  | .f64 => some ['d', 'o', 'u', 'b', 'l', 'e']
  | .f32 => some ['f', 'l', 'o', 'a', 't']
  | .si8 => some ['i', 'n', 't', '8', '_', 't']
  | .si32 => some ['i', 'n', 't', '3', '2', '_', 't']
  | .si64 => some ['i', 'n', 't', '6', '4', '_', 't']
  | .ui8 => some ['u', 'i', 'n', 't', '8', '_', 't']
  | .ui32 => some ['u', 'i', 'n', 't', '3', '2', '_', 't']
  | .ui64 => some ['u', 'i', 'n', 't', '6', '4', '_', 't']
  | .i1 => some ['b', 'o', 'o', 'l']
  | .index => some ['s', 'i', 'z', 'e', '_', 't']
  | .string => some ['c', 'h', 'a', 'r']
  | .unknown => none

/-- Value types of matrices and columns: strings are `std::string` there — CompilerUtils.h:198-202, 217-221. -/
def eltName (v : Vt) : Option (List Char) :=
  if v = .string then some ['s', 't', 'd', ':', ':', 's', 't', 'r', 'i', 'n', 'g'] else vtName v

/-- `mlirTypeToCppTypeName` with angle brackets — CompilerUtils.h:166-252. -/
def cppName : Ty → Option (List Char)
  | .sca v => vtName v
  | .struct => some ['S', 't', 'r', 'u', 'c', 't', 'u', 'r', 'e']
  | .matrix v _ _ _ .dense _ => (eltName v).map fun n => ['D', 'e', 'n', 's', 'e', 'M', 'a', 't', 'r', 'i', 'x', '<'] ++ (n ++ ['>'])
  | .matrix v _ _ _ .sparse _ => (eltName v).map fun n => ['C', 'S', 'R', 'M', 'a', 't', 'r', 'i', 'x', '<'] ++ (n ++ ['>'])
  | .frame .. => some ['F', 'r', 'a', 'm', 'e']
  | .column v _ => (eltName v).map fun n => ['C', 'o', 'l', 'u', 'm', 'n', '<'] ++ (n ++ ['>'])
  | .list e => (cppName e).map fun n => ['L', 'i', 's', 't', '<'] ++ (n ++ ['>'])
  | .context => some ['D', 'a', 'p', 'h', 'n', 'e', 'C', 'o', 'n', 't', 'e', 'x', 't']
  | .file => some ['F', 'i', 'l', 'e']
  | .descriptor => some ['D', 'e', 's', 'c', 'r', 'i', 'p', 't', 'o', 'r']
  | .target => some ['T', 'a', 'r', 'g', 'e', 't']
  | .memref s v _ =>
    (vtName v).map fun n =>
      ['S', 't', 'r', 'i', 'd', 'e', 'd', 'M', 'e', 'm', 'R', 'e', 'f', 'T', 'y', 'p', 'e', '<'] ++ (n ++ (',' :: (Nat.toDigits 10 s.length ++ ['>'])))

/-- The value types of the catalog parser, in order — KernelCatalogParser.cpp:40-50. -/
def scalarTypes : List Vt := [.f64, .f32, .si64, .si32, .si8, .ui64, .ui32, .ui8, .i1, .index, .string]

/-- The types entered for a value type — KernelCatalogParser.cpp:51-85. -/
def typesOf (v : Vt) : List Ty :=
  [.sca v, .matrix v none none none .dense none, .matrix v none none none .sparse none, .list (.matrix v none none none .dense none),
    .list (.matrix v none none none .sparse none), .column v none] ++
  (if v = .string then [] else [.memref [none] v 0, .memref [none, none] v 0])

/-- All types entered — KernelCatalogParser.cpp:51-97. -/
def catalogTypes : List Ty := scalarTypes.flatMap typesOf ++ [.struct, .frame [.unknown] none none none, .context]

/-- `typeMap`: `emplace` keeps the first entry of a name — KernelCatalogParser.cpp:51-97. -/
def typeMap : List Ty → List (List Char × Ty) → Option (List (List Char × Ty))
  | [], m => some m
  | t :: ts, m => (cppName t).bind fun n => typeMap ts (if m.any (fun e => e.1 = n) then m else m ++ [(n, t)])

/-- `typeMap.find`. -/
def findTy (m : List (List Char × Ty)) (n : List Char) : Option Ty := (m.find? fun e => e.1 = n).map (·.2)

/-- One entry of a catalog file. -/
structure Entry where
  op : List Char
  name : List Char
  res : List (List Char)
  args : List (List Char)
  backend : List Char
  lib : List Char

/-- `parseKernelCatalog` for the entries of the file: the kernels registered before the first error stay; the flag is false after an error —
KernelCatalogParser.cpp:119-148. -/
def parseEntries (m : List (List Char × Ty)) (dir : List Char) (prio : ℤ) : Catalog → List Entry → Catalog × Bool
  | c, [] => (c, true)
  | c, e :: es =>
    if e.op = ['A', 'v', 'g', '_', 'F', 'o', 'r', 'w', 'a', 'r', 'd'] ∨ e.op = ['M', 'a', 'x', '_', 'F', 'o', 'r', 'w', 'a', 'r', 'd'] then parseEntries m dir prio c es
    else
      match e.res.mapM (findTy m), e.args.mapM (findTy m) with
      | some r, some a => parseEntries m dir prio (register c e.op ⟨e.name, r, a, e.backend, dir ++ e.lib, prio⟩) es
      | _, _ => (c, false)

/-! ### Casts for kernels with uniform value types -/

/-- The traits the pass looks at — AdaptTypesToKernelsPass.cpp:61-131. -/
inductive Trait where
  | mostGeneral | argsToRes | firstToRes | firstTwoToRes | randMatrix | nothing
  deriving DecidableEq

/-- `generality` — TypeInferenceUtils.cpp:19-55. -/
def generality : Vt → Nat
  | .unknown => 11
  | .string => 10
  | .f64 => 9
  | .f32 => 8
  | .ui64 => 7
  | .si64 => 6
  | .index => 5
  | .ui32 => 4
  | .si32 => 3
  | .ui8 => 2
  | .si8 => 1
  | .i1 => 0

/-- `mostGeneralVt` — TypeInferenceUtils.cpp:57-67. -/
def mostGeneral : List Vt → Option Vt
  | [] => none
  | v :: vs => some (vs.foldl (fun r w => if generality w > generality r then w else r) v)

/-- `getValueType` — CompilerUtils.h:340-360. -/
def getVt : Ty → Option Vt
  | .sca v => some v
  | .matrix v _ _ _ _ _ => some v
  | .column v _ => some v
  | .list e => getVt e
  | _ => none

/-- `setValueType`: for a list, the element type is changed and returned — CompilerUtils.h:411-431. -/
def setVt : Ty → Vt → Option Ty
  | .sca .unknown, _ => none
  | .sca _, w => some (.sca w)
  | .matrix _ r c s rep sym, w => some (.matrix w r c s rep sym)
  | .column _ r, w => some (.column w r)
  | .list e, w => setVt e w
  | _, _ => none

/-- Is it a frame? -/
def isFrame : Ty → Bool
  | .frame .. => true
  | _ => false

/-- Which operands to cast, and to what; `none`: an exception; an empty list: nothing — AdaptTypesToKernelsPass.cpp:57-131. -/
def adaptPlan (tr : Trait) (args res : List Ty) : Option (List Nat × Vt) :=
  match tr with
  | .mostGeneral =>
    if args.any isFrame then some ([], .unknown)
    else (args.mapM getVt).bind fun vs => (mostGeneral vs).map fun v => (List.range args.length, v)
  | tr =>
    match res with
    | [] => some ([], .unknown)
    | r :: _ =>
      if isFrame r || args.any isFrame then some ([], .unknown)
      else (getVt r).map fun v =>
        match tr with
        | .argsToRes => (List.range args.length, v)
        | .firstToRes => ([0], v)
        | .firstTwoToRes => ([0, 1], v)
        | .randMatrix => ([2, 3], v)
        | _ => ([], v)

/-- The casts: the operand types afterwards (a new type is that of a `CastOp` of the old operand) — AdaptTypesToKernelsPass.cpp:133-145. -/
def castLoop (v : Vt) : List Nat → List Ty → Option (List Ty)
  | [], args => some args
  | i :: is, args =>
    match args[i]? with
    | none => none
    | some t => (getVt t).bind fun w => if w ≠ v then (setVt t v).bind fun t' => castLoop v is (args.set i t') else castLoop v is args

/-- The pass on one operation: the operand types afterwards. -/
def adapt (tr : Trait) (args res : List Ty) : Option (List Ty) :=
  (adaptPlan tr args res).bind fun p => castLoop p.2 p.1 args

end Verif.Disp

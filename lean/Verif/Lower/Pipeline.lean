/-
  Lowering of vectorized pipelines and string constants: src/compiler/lowering/LowerToLLVMPass.cpp (`ConstantOpLowering`, `StoreVariadicPackOpLowering`, `VectorizedPipelineOpLowering`),
  and the inputs of pipeline tasks: src/runtime/local/vectorized/Tasks.h (`createFuncInputs`). (C343-C347)

  Scalars are passed to pipelines in the place of pointers. Contracts: extending a `float` to a `double` and truncating it back are parameters (`ext`, `trunc`); a 64-bit `ZExtOp`, `TruncOp` or `FPExtOp` to the same width is the identity.
-/
import Mathlib.Data.List.Basic
import Mathlib.Tactic.NormNum

namespace Verif.Lower

/-! ### String constants -/

/-- The stores of the characters, from position `i` on — LowerToLLVMPass.cpp:127-136. -/
def storeChars (a : Nat) : Nat → List Nat → (Nat → Nat) → Nat → Nat
  | _, [], mem => mem
  | i, ch :: r, mem => storeChars a (i + 1) r fun b => if b = a + i then ch else mem b

/-- `ConstantOpLowering` for strings: the characters and a null character — LowerToLLVMPass.cpp:96-136. -/
def storeString (a : Nat) (s : List Nat) (mem : Nat → Nat) : Nat → Nat := storeChars a 0 (s ++ [0]) mem

/-- The kernels get a `const char *`: `s` is the text at address `a`. -/
def Text (mem : Nat → Nat) (a : Nat) (s : List Nat) : Prop :=
  (∀ (i : Nat) ch, s[i]? = some ch → mem (a + i) = ch ∧ ch ≠ 0) ∧ mem (a + s.length) = 0

theorem storeChars_get (a : Nat) : ∀ (l : List Nat) (i : Nat) (mem : Nat → Nat),
    (∀ k ch, l[k]? = some ch → storeChars a i l mem (a + i + k) = ch) ∧ ∀ b, b < a + i → storeChars a i l mem b = mem b := by
  intro l
  induction l with
  | nil => intro i mem; exact ⟨fun k ch h => by simp at h, fun _ _ => rfl⟩
  | cons c r ih =>
    intro i mem
    obtain ⟨h1, h2⟩ := ih (i + 1) fun b => if b = a + i then c else mem b
    refine ⟨?_, ?_⟩
    · intro k ch h
      cases k with
      | zero =>
        simp only [List.getElem?_cons_zero, Option.some.injEq] at h
        subst h
        rw [storeChars, h2 _ (by omega), if_pos (Nat.add_zero _)]
      | succ k =>
        rw [storeChars, show a + i + (k + 1) = a + (i + 1) + k by omega]
        exact h1 k ch (by simpa using h)
    · intro b hb
      rw [storeChars, h2 b (by omega), if_neg (by omega)]

/-- **C343.** String constants without null characters reach the kernels unchanged, whatever the memory contained before; and nothing in front of or behind the allocated memory is written. -/
theorem C343_string_constants (a : Nat) (s : List Nat) (mem : Nat → Nat) (hs : 0 ∉ s) :
    Text (storeString a s mem) a s ∧ ∀ b, (b < a ∨ a + s.length + 1 ≤ b) → storeString a s mem b = mem b := by
  obtain ⟨h1, h2⟩ := storeChars_get a (s ++ [0]) 0 mem
  refine ⟨⟨?_, ?_⟩, ?_⟩
  · intro i ch h
    have hlt := (List.getElem?_eq_some_iff.1 h).1
    refine ⟨h1 i ch (by rw [List.getElem?_append_left hlt]; exact h), ?_⟩
    rintro rfl
    exact hs (List.mem_of_getElem? h)
  · exact h1 s.length 0 (by simp)
  · intro b hb
    rcases hb with hb | hb
    · exact h2 b hb
    · have key : ∀ (l : List Nat) (i : Nat) (mem : Nat → Nat), a + i + l.length ≤ b → storeChars a i l mem b = mem b := by
        intro l
        induction l with
        | nil => intro i mem _; rfl
        | cons c r ih =>
          intro i mem h
          simp only [List.length_cons] at h
          rw [storeChars, ih _ _ (by omega), if_neg (by omega)]
      exact key _ 0 mem (by simp; omega)

example : Text (storeString 5 [104, 105] fun _ => 77) 5 [104, 105] := (C343_string_constants 5 [104, 105] _ (by decide)).1

/-! ### Inputs of pipelines -/

abbrev Word := BitVec 64

/-- A scalar or pointer, in its LLVM type: an integer (`sgn` if its type is still a signed one), a floating-point number (its bits), or a pointer: an object or a string. -/
inductive Val where
  | int (w : Nat) (sgn : Bool) (x : BitVec w)
  | f32 (x : BitVec 32)
  | f64 (x : BitVec 64)
  | obj (x : Word)
  | str (x : Word)

/-- The type of an input. -/
inductive STy where
  | int (w : Nat) (sgn : Bool)
  | f32 | f64 | obj | str
  deriving DecidableEq

def Val.ty : Val → STy
  | .int w s _ => .int w s
  | .f32 _ => .f32
  | .f64 _ => .f64
  | .obj _ => .obj
  | .str _ => .str

section
variable (ext : BitVec 32 → BitVec 64) (trunc : BitVec 64 → BitVec 32)

/-- `StoreVariadicPackOpLowering` for the pack of inputs — LowerToLLVMPass.cpp:489-509. -/
def toWord : Val → Word
  | .int _ sgn x => if sgn then x.signExtend 64 else x.setWidth 64
  | .f32 x => ext x
  | .f64 x => x
  | .obj x => x
  | .str x => x

/-- Whether an input is a scalar: its type is not a pointer type — LowerToLLVMPass.cpp:793-799. -/
def isScalar : Val → Bool
  | .int .. | .f32 _ | .f64 _ => true
  | .obj _ | .str _ => false

/-- How the function of a pipeline gets an input from the array — LowerToLLVMPass.cpp:601-616. -/
def fromWord : STy → Word → Val
  | .int w s, x => .int w s (x.setWidth w)
  | .f32, x => .f32 (trunc x)
  | .f64, x => .f64 x
  | .obj, x => .obj x
  | .str, x => .str x

/-- The same for CUDA — LowerToLLVMPass.cpp:687-696. -/
def fromWordCuda : STy → Word → Val
  | .int w s, x => .int w s (x.setWidth w)
  | .f32, x => .f32 (x.setWidth 32)
  | .f64, x => .f64 x
  | .obj, x => .obj x
  | .str, x => .str x

inductive Split where
  | none | rows
  deriving DecidableEq

/-- The operands of a pipeline: inputs, then numbers of rows, then numbers of columns (DaphneOps.td:1915-1918: `$inputs, $out_rows, $out_cols`), its attributes and the number of its results. -/
structure Pipe where
  inputs : List Val
  rows : List Word
  cols : List Word
  splits : List Split
  combines : List Nat
  numRes : Nat

/-- All operands, as the pass gets them. -/
def Pipe.operands (p : Pipe) : List Val := p.inputs ++ p.rows.map (.int 64 false) ++ p.cols.map (.int 64 false)

/-- What the kernel for pipelines gets — VectorizedPipeline.h:35-38. -/
structure VecArgs where
  isScalar : List Bool
  inputs : List Word
  outRows : List Word
  outCols : List Word
  splits : List Split
  combines : List Nat

/-- The operands of the kernel call — LowerToLLVMPass.cpp:775-845. -/
def vecArgs (p : Pipe) : VecArgs :=
  let n := p.inputs.length
  { isScalar := (p.operands.take n).map isScalar
    inputs := (p.operands.take n).map (toWord ext)
    outRows := ((p.operands.drop n).take p.numRes).map (toWord ext)
    outCols := (((p.operands.drop n).drop p.numRes).take p.numRes).map (toWord ext)
    splits := p.splits
    combines := p.combines }

/-- The objects: the number of rows (nothing if there is no object at that address) and views of rows. -/
structure Heap where
  numRows : Word → Option Nat
  slice : Word → Nat → Nat → Word

/-- `createFuncInputs` for one input — Tasks.h:82-108: the input of the function and whether a reference is counted; `none` if something is dereferenced that is not an object. -/
def funcInput (h : Heap) (r1 r2 : Nat) (scalar : Bool) (w : Word) : Split → Option (Word × Bool)
  | .none => if scalar then some (w, false) else (h.numRows w).map fun _ => (w, true)
  | .rows =>
    match h.numRows w with
    | none => none
    | some n => if n = 1 then some (w, !scalar) else some (h.slice w r1 r2, false)

/-- All inputs of the function. -/
def funcInputs (h : Heap) (r1 r2 : Nat) : List Bool → List Word → List Split → Option (List (Word × Bool))
  | [], [], [] => some []
  | b :: bs, w :: ws, s :: ss => (funcInput h r1 r2 b w s).bind fun q => (funcInputs h r1 r2 bs ws ss).map (q :: ·)
  | _, _, _ => none

/-- The arguments of the body: the first block argument is replaced and erased, for each input — LowerToLLVMPass.cpp:597-619. -/
def bodyArgs (tys : List STy) (ws : List Word) : List Val := List.zipWith (fromWord trunc) tys ws

/-- What the body of the pipeline computes with, for the rows `r1` to `r2`. -/
def taskArgs (h : Heap) (r1 r2 : Nat) (p : Pipe) : Option (List Val × List Bool) :=
  let a := vecArgs ext p
  (funcInputs h r1 r2 a.isScalar a.inputs a.splits).map fun l => (bodyArgs trunc (p.inputs.map Val.ty) (l.map (·.1)), l.map (·.2))

/-! ### Specification -/

/-- What the body should get for an input: a scalar itself; an object itself, with one more reference, if it is not split or has a single row; the rows `r1` to `r2` of it otherwise. -/
def Gets (h : Heap) (r1 r2 : Nat) : Val → Split → Val → Bool → Prop
  | .obj x, .none, v, counted => v = .obj x ∧ counted = true
  | .obj x, .rows, v, counted => (h.numRows x = some 1 → v = .obj x ∧ counted = true) ∧ (h.numRows x ≠ some 1 → v = .obj (h.slice x r1 r2) ∧ counted = false)
  | x, _, v, counted => v = x ∧ counted = false

/-- Inputs of the pipelines considered: scalars of at most 64 bits that are not split and not strings, and objects. -/
def Usual (h : Heap) : Val → Split → Prop
  | .int w _ _, s => w ≤ 64 ∧ s = .none
  | .f32 x, s => trunc (ext x) = x ∧ s = .none
  | .f64 _, s => s = .none
  | .obj x, _ => (h.numRows x).isSome
  | .str _, _ => False

theorem from_to (v : Val) (h : Heap) (s : Split) (hu : Usual ext trunc h v s) : fromWord trunc v.ty (toWord ext v) = v := by
  cases v with
  | int w sgn x =>
    obtain ⟨hw, -⟩ := hu
    cases sgn with
    | false =>
      simp only [Val.ty, toWord, fromWord, Bool.false_eq_true, if_false]
      congr 1
      rw [BitVec.setWidth_setWidth_of_le _ hw, BitVec.setWidth_eq]
    | true =>
      simp only [Val.ty, toWord, fromWord, if_true]
      congr 1
      ext i hi
      rw [BitVec.getElem_setWidth, BitVec.getLsbD_signExtend]
      simp [hi, show i < 64 by omega, BitVec.getLsbD_eq_getElem]
  | f32 x => simp only [Val.ty, toWord, fromWord, hu.1]
  | f64 x => rfl
  | obj x => rfl
  | str x => rfl

theorem funcInputs_ok (h : Heap) (r1 r2 : Nat) : ∀ (vs : List Val) (ss : List Split), List.Forall₂ (Usual ext trunc h) vs ss →
    ∃ l, funcInputs h r1 r2 (vs.map isScalar) (vs.map (toWord ext)) ss = some l ∧ l.length = vs.length ∧
      ∀ (i : Nat) v s, vs[i]? = some v → ss[i]? = some s → ∃ w c, l[i]? = some (w, c) ∧ Gets h r1 r2 v s (fromWord trunc v.ty w) c := by
  intro vs ss hf
  induction hf with
  | nil => exact ⟨[], rfl, rfl, fun i v s h => by simp at h⟩
  | @cons v s vs ss hu hf ih =>
    obtain ⟨l, e, hl, hg⟩ := ih
    have key : ∃ w c, funcInput h r1 r2 (isScalar v) (toWord ext v) s = some (w, c) ∧ Gets h r1 r2 v s (fromWord trunc v.ty w) c := by
      have ft := from_to ext trunc v h s hu
      cases v with
      | int w sgn x =>
        obtain ⟨-, rfl⟩ := hu
        exact ⟨_, _, rfl, ft, rfl⟩
      | f32 x =>
        obtain ⟨-, rfl⟩ := hu
        exact ⟨_, _, rfl, ft, rfl⟩
      | f64 x =>
        cases hu
        exact ⟨_, _, rfl, ft, rfl⟩
      | obj x =>
        simp only [Usual, Option.isSome_iff_exists] at hu
        obtain ⟨n, hn⟩ := hu
        cases s with
        | none => exact ⟨x, true, by simp [funcInput, isScalar, toWord, hn], rfl, rfl⟩
        | rows =>
          by_cases h1 : n = 1
          · subst h1
            exact ⟨x, true, by simp [funcInput, isScalar, toWord, hn], fun _ => ⟨rfl, rfl⟩, fun hne => absurd hn hne⟩
          · refine ⟨h.slice x r1 r2, false, by simp [funcInput, toWord, hn, h1], fun e => ?_, fun _ => ⟨rfl, rfl⟩⟩
            rw [hn] at e; cases e; exact absurd rfl h1
      | str x => exact hu.elim
    obtain ⟨w, c, hk, hgk⟩ := key
    refine ⟨(w, c) :: l, by simp [funcInputs, hk, e], by simp [hl], ?_⟩
    intro i v' s' hv hs
    cases i with
    | zero =>
      simp only [List.getElem?_cons_zero, Option.some.injEq] at hv hs
      subst hv hs
      exact ⟨w, c, rfl, hgk⟩
    | succ i => exact hg i v' s' (by simpa using hv) (by simpa using hs)

/-- **C344.** In every task of a pipeline on CPUs, the body computes with exactly the inputs of the pipeline, each in its place: scalars (integers of up to 64 bits, signed or not, single and double
precision) have their values, objects are passed themselves with a reference for the body to give back, or as a view of the rows of the task; and the kernel gets the numbers of rows and columns
of the results, the splits and the combines in their order. -/
theorem C344_pipeline_inputs (h : Heap) (r1 r2 : Nat) (p : Pipe) (hr : p.rows.length = p.numRes) (hc : p.cols.length = p.numRes)
    (hu : List.Forall₂ (Usual ext trunc h) p.inputs p.splits) :
    (vecArgs ext p).outRows = p.rows ∧ (vecArgs ext p).outCols = p.cols ∧ (vecArgs ext p).splits = p.splits ∧ (vecArgs ext p).combines = p.combines ∧
    ∃ vs cs, taskArgs ext trunc h r1 r2 p = some (vs, cs) ∧ vs.length = p.inputs.length ∧ cs.length = p.inputs.length ∧
      ∀ (i : Nat) x s v c, p.inputs[i]? = some x → p.splits[i]? = some s → vs[i]? = some v → cs[i]? = some c → Gets h r1 r2 x s v c := by
  have hw : ∀ l : List Word, (l.map (Val.int 64 false)).map (toWord ext) = l := by
    intro l
    rw [List.map_map]
    conv_rhs => rw [← List.map_id l]
    apply List.map_congr_left
    intro x _
    simp [toWord]
  refine ⟨?_, ?_, rfl, rfl, ?_⟩
  · simp only [vecArgs, Pipe.operands, List.append_assoc, List.drop_left]
    rw [List.take_left' (by simp [hr]), hw]
  · simp only [vecArgs, Pipe.operands, List.append_assoc, List.drop_left]
    rw [List.drop_left' (by simp [hr]), List.take_of_length_le (by simp [hc]), hw]
  · obtain ⟨l, e, hl, hg⟩ := funcInputs_ok ext trunc h r1 r2 p.inputs p.splits hu
    have hin : (p.operands.take p.inputs.length) = p.inputs := by
      simp [Pipe.operands, List.append_assoc]
    refine ⟨bodyArgs trunc (p.inputs.map Val.ty) (l.map (·.1)), l.map (·.2), ?_, ?_, ?_, ?_⟩
    · simp only [taskArgs, vecArgs, hin, e, Option.map_some]
    · simp [bodyArgs, hl]
    · simp [hl]
    · intro i x s v c hx hs hv hcc
      obtain ⟨w, c', hlw, hgt⟩ := hg i x s hx hs
      simp only [bodyArgs, List.getElem?_zipWith, List.getElem?_map, hx, hlw, Option.map_some, Option.some.injEq] at hv hcc
      subst hv hcc
      exact hgt

/-- The bits of a `float` and of a `double`: sign, exponent, mantissa. -/
def bits32 (s e m : Nat) : BitVec 32 := BitVec.ofNat 32 (s * 2 ^ 31 + e * 2 ^ 23 + m)
def bits64 (s e m : Nat) : BitVec 64 := BitVec.ofNat 64 (s * 2 ^ 63 + e * 2 ^ 52 + m)

/-- **C345, refuted.** Scalars in single precision have another value in every CUDA pipeline: for every normal number (`hext`: a normal number is extended by shifting its mantissa and adapting the
exponent), the body gets the lower half of the bits of the *double*. -/
theorem C345_single_precision_cuda_partial (hext : ∀ s e m, s < 2 → 0 < e → e < 255 → m < 2 ^ 23 → ext (bits32 s e m) = bits64 s (e + 896) (m * 2 ^ 29))
    (s e m : Nat) (hs : s < 2) (he : 0 < e) (he' : e < 255) (hm : m < 2 ^ 23) :
    fromWordCuda .f32 (toWord ext (.f32 (bits32 s e m))) = .f32 (BitVec.ofNat 32 ((m % 8) * 2 ^ 29)) ∧
    fromWordCuda .f32 (toWord ext (.f32 (bits32 s e m))) ≠ .f32 (bits32 s e m) := by
  have h1 : fromWordCuda .f32 (toWord ext (.f32 (bits32 s e m))) = .f32 (BitVec.ofNat 32 ((m % 8) * 2 ^ 29)) := by
    simp only [fromWordCuda, toWord, hext s e m hs he he' hm]
    congr 1
    apply BitVec.eq_of_toNat_eq
    simp only [bits64, BitVec.toNat_setWidth, BitVec.toNat_ofNat]
    norm_num
    omega
  refine ⟨h1, ?_⟩
  rw [h1]
  intro heq
  simp only [Val.f32.injEq] at heq
  have := congrArg BitVec.toNat heq
  simp only [bits32, BitVec.toNat_ofNat] at this
  norm_num at this hm
  omega

/-- **C346, refuted.** A string passed to a pipeline is not marked as a scalar, because it is a pointer; its characters are then used as an object. -/
theorem C346_strings_in_pipelines_partial (h : Heap) (r1 r2 : Nat) (x : Word) (hx : h.numRows x = none) (rows cols : List Word) (k : Nat) :
    (vecArgs ext ⟨[.str x], rows, cols, [.none], [0], k⟩).isScalar = [false] ∧ taskArgs ext trunc h r1 r2 ⟨[.str x], rows, cols, [.none], [0], k⟩ = none := by
  constructor
  · rfl
  · simp [taskArgs, vecArgs, Pipe.operands, funcInputs, funcInput, isScalar, toWord, hx]

end

/-! ### Results of pipelines -/

inductive Elt where
  | f64 | f32 | si64 | si32 | si8 | ui64 | ui32 | ui8 | bool | str
  deriving DecidableEq

/-- The type of a result: a matrix with its value type and whether it is sparse, or a frame. -/
inductive RTy where
  | matrix (e : Elt) (sparse : Bool)
  | frame
  deriving DecidableEq

/-- The checks of the types of the results — LowerToLLVMPass.cpp:727-773: `none` for a compiler error; a frame is undefined behaviour (a failed `dyn_cast` is used), which is an error here, too. -/
def resultsAccepted : List RTy → Bool
  | [] => false
  | .frame :: _ => false
  | .matrix e sp :: r => r.all (fun t => decide (t = .matrix e sp)) && (e = .f64 || e = .f32 || e = .si64)

/-- **C347, refuted.** Not every program can be vectorized: a pipeline is compiled exactly if it has a result and all of its results are matrices of the same representation and the same one of the value types
`f64`, `f32` and `si64`. -/
theorem C347_pipeline_result_types_partial (ts : List RTy) :
    resultsAccepted ts = true ↔ ts ≠ [] ∧ ∃ e sp, (∀ t ∈ ts, t = .matrix e sp) ∧ (e = .f64 ∨ e = .f32 ∨ e = .si64) := by
  cases ts with
  | nil => simp [resultsAccepted]
  | cons t r =>
    cases t with
    | frame => simp [resultsAccepted]
    | matrix e sp =>
      simp only [resultsAccepted, Bool.and_eq_true, List.all_eq_true, decide_eq_true_eq, Bool.or_eq_true, List.mem_cons, ne_eq, reduceCtorEq, not_false_eq_true, true_and]
      constructor
      · rintro ⟨h, he⟩
        exact ⟨e, sp, fun t ht => ht.elim id (h t), by tauto⟩
      · rintro ⟨e', sp', h, he⟩
        have := h _ (Or.inl rfl)
        cases this
        exact ⟨fun t ht => h t (Or.inr ht), by tauto⟩

example : resultsAccepted [.matrix .f64 false, .matrix .si64 false] = false := by decide
example : resultsAccepted [.matrix .ui8 false] = false := by decide
example : resultsAccepted [.matrix .f64 true, .matrix .f64 true] = true := by decide

/-! ### A case: a matrix that is split, a negative integer and a double -/

def heap0 : Heap := ⟨fun w => if w = 16 then some 10 else none, fun w a b => w + BitVec.ofNat 64 (1000 * a + b)⟩
def pipe0 : Pipe := ⟨[.obj 16, .int 8 true (-3), .f64 7], [10], [2], [.rows, .none, .none], [1], 1⟩

example (ext : BitVec 32 → BitVec 64) (trunc : BitVec 64 → BitVec 32) : List.Forall₂ (Usual ext trunc heap0) pipe0.inputs pipe0.splits :=
  .cons (show (heap0.numRows 16).isSome from rfl) (.cons ⟨by decide, rfl⟩ (.cons rfl .nil))
example : (taskArgs (fun _ => 0) (fun _ => 0) heap0 2 5 pipe0).map (fun q => q.2) = some [false, false, false] := by decide +kernel

end Verif.Lower

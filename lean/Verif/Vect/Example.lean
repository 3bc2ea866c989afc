/-
  A concrete pipeline that meets the hypotheses of C08 and C09.
-/
import Verif.Vect.Term

namespace Verif.Vect
open Verif Verif.Dense

/-! ### A concrete instance

A pipeline with one split 5×2 input `X`, computing `X + 1` (row-combined), `t(X)` (column-combined), and the column sums (ADD). -/
namespace Example

def X : Mat Int := ⟨5, 2, fun r c => 10 * r + c⟩
def sumTo (f : Nat → Int) : Nat → Int
  | 0 => 0
  | n + 1 => sumTo f n + f n

def sumRows (a : Mat Int) (c n : Nat) : Int := sumTo (fun r => a.cell r c) n

def F : PipeSpec Int := fun As o =>
  match As, o with
  | [a], 0 => Mat.map (· + 1) a
  | [a], 1 => a.transpose
  | [a], 2 => ⟨1, a.cols, fun _ c => sumRows a c a.rows⟩
  | _, _ => ⟨0, 0, fun _ _ => 0⟩

/-- An implementation: fresh objects with the required contents. -/
def mk (a : Mat Int) : DM Int := ⟨Hdr.new a.rows a.cols, ⟨a.rows * a.cols, fun i => a.cell (i / a.cols) (i % a.cols)⟩⟩

theorem mk_is (a : Mat Int) : (mk a).Is a := by
  refine is_new rfl fun r c hr hc => ?_
  have h1 : (r * a.cols + c) / a.cols = r := by
    rw [Nat.mul_comm, Nat.mul_add_div (by omega), Nat.div_eq_of_lt hc]; rfl
  have h2 : (r * a.cols + c) % a.cols = c := by
    rw [Nat.mul_comm, Nat.mul_add_mod, Nat.mod_eq_of_lt hc]
  show a.cell _ _ = _
  rw [h1, h2]

def view (x : DM Int) : Mat Int := ⟨x.h.numRows, x.h.numCols, fun r c => x.mem.data (x.h.base + r * x.h.rowSkip + c)⟩

def pipe : Pipe Int where
  func := fun xs => .ok fun o => mk (F (xs.map view) o)
  inputs := [⟨mk X, .rows⟩]
  numOutputs := 3
  combine := fun o => match o with | 0 => .rows | 1 => .cols | _ => .add
  addOp := (· + ·)
  minOp := min
  maxOp := max

def ins : List (Inp Int) := [⟨X, .rows⟩]
def tasks : List (Nat × Nat) := [(0, 2), (2, 5)]

theorem sumRows_congr {a b : Mat Int} {c n : Nat} (h : ∀ r, r < n → a.cell r c = b.cell r c) : sumRows a c n = sumRows b c n := by
  unfold sumRows
  induction n with
  | zero => rfl
  | succ n ih => simp only [sumTo]; rw [ih fun r hr => h r (by omega), h n (by omega)]

theorem sumTo_split (f : Nat → Int) (r k m : Nat) :
    sumTo (fun i => f (r + i)) (k + m) = sumTo (fun i => f (r + i)) k + sumTo (fun i => f (r + k + i)) m := by
  induction m with
  | zero => simp [sumTo]
  | succ m ih =>
    rw [← Nat.add_assoc k m 1]
    simp only [sumTo]
    rw [ih, Nat.add_assoc r k m]; omega

theorem setup : Setup pipe ins F 5 tasks (fun t => t + 1) where
  inputs := .cons ⟨mk_is X, rfl, fun _ => .inr rfl⟩ .nil
  func := by
    intro r r2 _ _ xs h
    revert h
    unfold onRows
    generalize ins.map (·.part r r2) = As
    intro h
    refine ⟨_, rfl, fun o ho => ?_⟩
    refine (mk_is _).congr ?_
    have hv : ∀ x a, DM.Is x a → (view x).Same a := fun x a hx => hx.wf.is.same hx
    match h with
    | .nil => match o with | 0 => exact ⟨rfl, rfl, fun _ _ _ _ => rfl⟩ | 1 => exact ⟨rfl, rfl, fun _ _ _ _ => rfl⟩ | _ + 2 => exact ⟨rfl, rfl, fun _ _ _ _ => rfl⟩
    | .cons hx .nil =>
      obtain ⟨e1, e2, e3⟩ := hv _ _ hx
      match o, ho with
      | 0, _ => exact ⟨e1, e2, fun r c hr hc => congrArg (· + 1) (e3 r c hr hc)⟩
      | 1, _ => exact ⟨e2, e1, fun r c hr hc => e3 c r hc hr⟩
      | 2, _ =>
        refine ⟨rfl, e2, fun r c hr hc => ?_⟩
        show sumRows _ c (view _).rows = sumRows _ c _
        rw [e1]
        exact sumRows_congr fun r hr => e3 r c (by omega) hc
    | .cons hx (.cons hy ht) => match o with | 0 => exact ⟨rfl, rfl, fun _ _ _ _ => rfl⟩ | 1 => exact ⟨rfl, rfl, fun _ _ _ _ => rfl⟩ | _ + 2 => exact ⟨rfl, rfl, fun _ _ _ _ => rfl⟩
  tiles := ⟨rfl, by decide, rfl, by decide, rfl⟩
  batch := fun t => by omega

theorem outputs (o : Nat) (ho : o < 3) : OutputOk pipe ins F 5 o
    (allocateOutput 0 (-1000) 1000 (fun i => (i : Int) - 7) (pipe.combine o) (some (F [X] o).rows) (some (F [X] o).cols)) := by
  match o, ho with
  | 0, _ =>
    refine ⟨⟨rfl, fun r r2 h1 h2 => ⟨rfl, rfl, fun _ _ _ _ => rfl⟩⟩, _, rfl, ?_, rfl, rfl⟩
    exact (is_new (f := fun r c => ((r * 2 + c : Nat) : Int) - 7) rfl fun _ _ _ _ => rfl).wf
  | 1, _ =>
    refine ⟨⟨rfl, fun r r2 h1 h2 => ⟨rfl, rfl, fun _ _ _ _ => rfl⟩⟩, _, rfl, ?_, rfl, rfl⟩
    exact (is_new (f := fun r c => ((r * 5 + c : Nat) : Int) - 7) rfl fun _ _ _ _ => rfl).wf
  | 2, _ =>
    refine ⟨⟨⟨rfl, rfl, fun r c _ _ => sumRows_congr fun i _ => ?_⟩, fun r r2 _ _ => ⟨rfl, rfl⟩, fun r r2 r3 h1 h2 h3 => ⟨rfl, rfl, fun R c _ _ => ?_⟩⟩,
      ⟨Int.add_assoc, Int.add_comm⟩, .inr ⟨_, 0, rfl, Int.zero_add, is_createZero _ _ _⟩⟩
    · show X.cell (0 + i) (0 + c) = X.cell i c
      rw [Nat.zero_add, Nat.zero_add]
    · obtain ⟨k, rfl⟩ : ∃ k, r2 = r + k := ⟨r2 - r, by omega⟩
      obtain ⟨m, rfl⟩ : ∃ m, r3 = r + (k + m) := ⟨r3 - (r + k), by omega⟩
      have := sumTo_split (fun i => X.cell i (0 + c)) r k m
      show sumRows (X.window r (r + (k + m)) 0 X.cols) c (r + (k + m) - r) =
        sumRows (X.window r (r + k) 0 X.cols) c (r + k - r) + sumRows (X.window (r + k) (r + (k + m)) 0 X.cols) c (r + (k + m) - (r + k))
      have e1 : r + (k + m) - r = k + m := by omega
      have e2 : r + k - r = k := by omega
      have e3 : r + (k + m) - (r + k) = m := by omega
      rw [e1, e2, e3]; exact this

/-- The hypotheses of C08/C09 hold for this pipeline, so its column sums are right under every interleaving. -/
example (sch : List Nat) : Res.Ok (run pipe tasks (fun t => t + 1) (St.init tasks fun o =>
      allocateOutput 0 (-1000) 1000 (fun i => (i : Int) - 7) (pipe.combine o) (some (F [X] o).rows) (some (F [X] o).cols)) sch)
    (fun s => s.finished 2 → ∃ x, s.res 2 = some x ∧ x.get 0 1 = .ok 105) :=
  (C09_aggregated setup (by omega) outputs sch 2 (by decide) (.inl rfl)).mono fun s h hf => by
    obtain ⟨x, hx, hIs⟩ := h hf
    exact ⟨x, hx, hIs.2.2.2 0 1 (by decide) (by decide)⟩

end Example

end Verif.Vect

/-
  Concrete operands that meet the hypotheses of the matrix-multiplication theorems: the 2 × 3 row view `exView` of a sparse matrix, its
  transpose, and dense matrices.
-/
import Verif.Mm.Phy
import Verif.Csr.Transpose
import Verif.Csr.Bind

namespace Verif.Mm
open Verif Verif.Csr

/-- Natural-number arithmetic meets the laws used. -/
def natA : Arith Nat := ⟨0, (· + ·), (· * ·)⟩

theorem natA_z1 : ∀ s w, natA.add s (natA.mul natA.zero w) = s := by intro s w; simp [natA]
theorem natA_z2 : ∀ s v, natA.add s (natA.mul v natA.zero) = s := by intro s v; simp [natA]

def exDense : Dense.DM Nat := ⟨Dense.Hdr.new 3 2, ⟨6, fun p => p + 1⟩⟩
theorem exDense_is : exDense.Is ⟨3, 2, fun r c => r * 2 + c + 1⟩ := Dense.is_new rfl fun _ _ _ _ => rfl

/-- C154: any variant, any schedule. The product of `[[0,5,0],[7,0,9]]` and `[[1,2],[3,4],[5,6]]` has `7*1 + 9*5 = 52` in cell (1,0). -/
example (v : Variant) : ∃ ts S z, threadSteps exView 2 (threadRows v 2) = .ok ts ∧ Interleave ts S ∧
    csrDense natA exView exDense (fun _ => 99) S = .ok z ∧ z.get 1 0 = .ok 52 := by
  obtain ⟨ts, h1, ⟨S, h2⟩, h3⟩ := (C154_sparse_times_dense natA natA_z1 v exView exDense exMat _ exView_is exDense_is (fun _ => 99)).1 rfl
  obtain ⟨z, z1, z2⟩ := h3 S h2
  exact ⟨ts, S, z, h1, h2, z1, z2.2.2.2 1 0 (by decide) (by decide)⟩

/-- Two different schedules of the parallel variant. -/
example : ∃ ts, threadSteps exView 1 (threadRows .parallel 2) = .ok ts ∧ Interleave ts [⟨0, 1, 0⟩, ⟨1, 2, 0⟩, ⟨1, 3, 0⟩] ∧
    Interleave ts [⟨1, 2, 0⟩, ⟨0, 1, 0⟩, ⟨1, 3, 0⟩] :=
  ⟨_, rfl, .step _ 0 _ _ _ rfl (.step _ 1 _ _ _ rfl (.step _ 1 _ _ _ rfl (.done _ (by simp)))),
    .step _ 1 _ _ _ rfl (.step _ 0 _ _ _ rfl (.step _ 1 _ _ _ rfl (.done _ (by simp))))⟩

/-- C155 and C157: multiplying by the transpose of the sparse view. -/
example : ∃ y : CM Nat, y.Is 0 exMat.transpose ∧ (∃ z, csrCsr natA exView y = .ok z ∧ z.Is 0 (matProd natA exMat exMat.transpose)) ∧
    (matProd natA exMat exMat.transpose).cell 1 1 = 130 := by
  obtain ⟨y, _, hy⟩ := C16_transpose 0 exView exMat exView_is (fun _ => 0) (fun _ => 0) (fun _ => 0)
  obtain ⟨z, hz⟩ := (C157_sparse_times_sparse natA natA_z1 natA_z2 exView y exMat _ exView_is hy).1 rfl
  exact ⟨y, hy, ⟨z, hz⟩, rfl⟩

example : ∃ z, denseCsr natA ⟨Dense.Hdr.new 1 2, ⟨2, fun p => p + 1⟩⟩ exView = .ok z ∧ z.get 0 0 = .ok 14 ∧ z.get 0 1 = .ok 5 := by
  obtain ⟨z, z1, z2⟩ := (C155_dense_times_sparse natA natA_z2 ⟨Dense.Hdr.new 1 2, ⟨2, fun p => p + 1⟩⟩ exView ⟨1, 2, fun r c => r * 2 + c + 1⟩ _
    (Dense.is_new rfl fun _ _ _ _ => rfl) exView_is).1 rfl
  exact ⟨z, z1, z2.2.2.2 0 0 (by decide) (by decide), z2.2.2.2 0 1 (by decide) (by decide)⟩

/-- C156 with a sparse left operand and a transposed dense right operand. -/
example : ∃ z, generic natA ⟨2, 3, exView.h.get 0 exView.mem⟩ ⟨3, 2, exDense.get⟩ false false (fun _ => 7) = .ok z ∧ z.get 0 1 = .ok 20 := by
  obtain ⟨z, z1, z2⟩ := (C156_any_times_any natA _ _ _ _ (anyMat_sparse exView_is) (anyMat_dense exDense_is) false false (fun _ => 7)).1 rfl
  exact ⟨z, z1, z2.2.2.2 0 1 (by decide) (by decide)⟩

/-- C158 for all flag combinations on a square matrix. -/
example (ta tb : Bool) : Res.Ok (denseDense natA true ⟨Dense.Hdr.new 2 2, ⟨4, id⟩⟩ ⟨Dense.Hdr.new 2 2, ⟨4, id⟩⟩ ta tb (fun _ => 7))
    (fun z => z.Is (matProd natA (flip ta ⟨2, 2, fun r c => r * 2 + c⟩) (flip tb ⟨2, 2, fun r c => r * 2 + c⟩))) := by
  have h : Dense.DM.Is (⟨Dense.Hdr.new 2 2, ⟨4, id⟩⟩ : Dense.DM Nat) ⟨2, 2, fun r c => r * 2 + c⟩ := Dense.is_new rfl fun _ _ _ _ => rfl
  refine (C158_dense_times_dense natA true _ _ _ _ h h ta tb _).1 ?_ ?_ ?_ <;> cases ta <;> cases tb <;> simp [flip, Mat.transpose]

/-- C160 and C161. -/
example (tl : Bool) : Res.Ok (syrk natA exDense tl (fun _ => 7)) (fun z => z.Is (matProd natA (flip tl ⟨3, 2, fun r c => r * 2 + c + 1⟩)
    (flip tl ⟨3, 2, fun r c => r * 2 + c + 1⟩).transpose)) :=
  C160_syrk natA (fun u w => Nat.mul_comm u w) _ _ exDense_is tl (by cases tl <;> simp [flip, Mat.transpose]) _

example : ∃ z, gemvDense natA exDense ⟨Dense.Hdr.new 3 1, ⟨3, fun p => p⟩⟩ (fun _ => 7) = .ok z ∧ z.get 1 0 = .ok 16 := by
  obtain ⟨z, z1, z2⟩ := C161_gemv natA exDense ⟨Dense.Hdr.new 3 1, ⟨3, fun p => p⟩⟩ _ ⟨3, 1, fun r c => r * 1 + c⟩ exDense_is
    (Dense.is_new rfl fun _ _ _ _ => rfl) rfl rfl (by decide) (fun _ => 7)
  exact ⟨z, z1, z2.2.2.2 1 0 (by decide) (by decide)⟩

end Verif.Mm

/-
  C360: `map` calls the user's function once per cell, row by row.
-/
import Verif.Interop.Model

namespace Verif.Interop
open Verif Verif.Dense Verif.Csr

variable {α σ γ : Type}

theorem forLoop_err {τ : Type} {body : Nat → τ → Res τ} (Inv : Nat → τ → Prop) {hi j0 : Nat} {e : Err}
    (hj : j0 < hi) (he : ∀ s, Inv j0 s → body j0 s = .error e) :
    ∀ (d lo : Nat) (s : τ), lo + d = j0 → Inv lo s →
      (∀ j s, lo ≤ j → j < j0 → Inv j s → Res.Ok (body j s) (Inv (j + 1))) → forLoop lo hi s body = .error e
  | 0, lo, s, hd, h0, _ => by
      have : lo = j0 := by omega
      subst this
      rw [forLoop_succ _ _ _ hj, he s h0]; rfl
  | d + 1, lo, s, hd, h0, hs => by
      rw [forLoop_succ _ _ _ (by omega)]
      obtain ⟨s', e', h'⟩ := hs lo s (Nat.le_refl _) (by omega) h0
      rw [e']
      exact forLoop_err Inv hj he d (lo + 1) s' (by omega) h' (fun j s a b c => hs j s (by omega) b c)

/-- The consecutive calls of the function on the cells of `a`, row by row: call number `i` (for `i < n`) is on the cell at
row `i / cols`, column `i % cols`, in the state `S i`; it returns `V i` and leaves the state `S (i + 1)`. -/
def Calls (udf : σ → α → Res (σ × γ)) (a : Mat α) (n : Nat) (S : Nat → σ) (V : Nat → γ) : Prop :=
  ∀ i, i < n → udf (S i) (a.cell (i / a.cols) (i % a.cols)) = .ok (S (i + 1), V i)

theorem flat_div {r c n : Nat} (hc : c < n) : (r * n + c) / n = r ∧ (r * n + c) % n = c := by
  constructor
  · rw [Nat.add_comm, Nat.add_mul_div_right _ _ (by omega), Nat.div_eq_of_lt hc]; simp
  · rw [Nat.add_comm, Nat.add_mul_mod_self_right, Nat.mod_eq_of_lt hc]

/-- What holds before cell number `k` while row `r` is processed. -/
def MInv (a : Mat α) (S : Nat → σ) (V : Nat → γ) (k : Nat) (s : σ) (m : Buf γ) : Prop :=
  s = S k ∧ m.size = a.rows * a.cols ∧ ∀ i, i < k → m.data i = V i

theorem cell_step {udf : σ → α → Res (σ × γ)} {arg : DM α} {a : Mat α} (hx : arg.Is a) {n : Nat} {S : Nat → σ}
    {V : Nat → γ} (hu : Calls udf a n S V) {r c : Nat} (hr : r < a.rows) (hc : c < a.cols) (hn : r * a.cols + c < n)
    {s : σ} {m : Buf γ} (hm : MInv a S V (r * a.cols + c) s m) :
    (do let v ← arg.mem.read (arg.h.start + r * arg.h.rowSkip + c)
        let (s, v) ← udf s v
        let m ← m.write (r * a.cols + c) v
        (.ok (s, m) : Res (σ × Buf γ))) = .ok (S (r * a.cols + c + 1), m.put (r * a.cols + c) (V (r * a.cols + c))) := by
  have h1 : arg.mem.read (arg.h.start + r * arg.h.rowSkip + c) = .ok (a.cell r c) := hx.read hr hc
  have h2 := hu _ hn
  obtain ⟨d1, d2⟩ := flat_div (r := r) hc
  rw [d1, d2] at h2
  rw [h1, hm.1]
  simp only [Res.ok_bind, h2]
  rw [Buf.write_eq (by rw [hm.2.1]; exact rm_lt hr hc (Nat.le_refl _))]
  rfl

theorem MInv.step {a : Mat α} {S : Nat → σ} {V : Nat → γ} {k : Nat} {s : σ} {m : Buf γ} (h : MInv a S V k s m) :
    MInv a S V (k + 1) (S (k + 1)) (m.put k (V k)) := by
  refine ⟨rfl, h.2.1, fun i hi => ?_⟩
  simp only [Buf.put]
  split
  · next e => rw [e]
  · next e => exact h.2.2 i (by omega)

/-- One row. -/
theorem row_ok {udf : σ → α → Res (σ × γ)} {arg : DM α} {a : Mat α} (hx : arg.Is a) {n : Nat} {S : Nat → σ}
    {V : Nat → γ} (hu : Calls udf a n S V) {r : Nat} (hr : r < a.rows) (hn : r * a.cols + a.cols ≤ n)
    {s : σ} {m : Buf γ} (hm : MInv a S V (r * a.cols) s m) :
    Res.Ok (forLoop 0 a.cols (s, m) fun c (x : σ × Buf γ) => do
        let v ← arg.mem.read (arg.h.start + r * arg.h.rowSkip + c)
        let (s, v) ← udf x.1 v
        let m ← x.2.write (r * a.cols + c) v
        .ok (s, m)) (fun x => MInv a S V (r * a.cols + a.cols) x.1 x.2) := by
  refine forLoop_post (fun c x => MInv a S V (r * a.cols + c) x.1 x.2) 0 a.cols (s, m) (Nat.zero_le _) hm ?_
    (fun s h => h)
  intro c x _ hc hi
  exact ⟨_, cell_step hx hu hr hc (by omega) hi, hi.step⟩

/-- A row in which a call fails. -/
theorem row_err {udf : σ → α → Res (σ × γ)} {arg : DM α} {a : Mat α} (hx : arg.Is a) {S : Nat → σ}
    {V : Nat → γ} {r c0 : Nat} (hr : r < a.rows) (hc : c0 < a.cols) (hu : Calls udf a (r * a.cols + c0) S V) {e : Err}
    (he : udf (S (r * a.cols + c0)) (a.cell r c0) = .error e)
    {s : σ} {m : Buf γ} (hm : MInv a S V (r * a.cols) s m) :
    (forLoop 0 a.cols (s, m) fun c (x : σ × Buf γ) => do
        let v ← arg.mem.read (arg.h.start + r * arg.h.rowSkip + c)
        let (s, v) ← udf x.1 v
        let m ← x.2.write (r * a.cols + c) v
        .ok (s, m)) = .error e := by
  refine forLoop_err (fun c x => MInv a S V (r * a.cols + c) x.1 x.2) hc ?_ c0 0 (s, m) (by omega) hm ?_
  · intro x hi
    have h1 : arg.mem.read (arg.h.start + r * arg.h.rowSkip + c0) = .ok (a.cell r c0) := hx.read hr hc
    rw [h1]
    simp only [Res.ok_bind]
    rw [hi.1, he]; rfl
  · intro c x _ hc' hi
    exact ⟨_, cell_step hx hu hr (by omega) (by omega) hi, hi.step⟩

/-- The state of the outer loop before row `r`. -/
def OInv (arg : DM α) (a : Mat α) (S : Nat → σ) (V : Nat → γ) (r : Nat) (x : σ × Nat × Nat × Buf γ) : Prop :=
  MInv a S V (r * a.cols) x.1 x.2.2.2 ∧ x.2.1 = arg.h.start + r * arg.h.rowSkip ∧ x.2.2.1 = r * a.cols

theorem outer_step {udf : σ → α → Res (σ × γ)} {arg : DM α} {a : Mat α} (hx : arg.Is a) {n : Nat} {S : Nat → σ}
    {V : Nat → γ} (hu : Calls udf a n S V) {r : Nat} (hr : r < a.rows) (hn : r * a.cols + a.cols ≤ n)
    {x : σ × Nat × Nat × Buf γ} (hi : OInv arg a S V r x) :
    Res.Ok ((fun (x : σ × Nat × Nat × Buf γ) => do
      let y ← forLoop 0 a.cols (x.1, x.2.2.2) fun c (z : σ × Buf γ) => do
        let v ← arg.mem.read (x.2.1 + c)
        let (s, v) ← udf z.1 v
        let m ← z.2.write (x.2.2.1 + c) v
        .ok (s, m)
      .ok (y.1, x.2.1 + arg.h.rowSkip, x.2.2.1 + a.cols, y.2)) x) (OInv arg a S V (r + 1)) := by
  obtain ⟨h1, h2, h3⟩ := hi
  simp only [h2, h3]
  refine (row_ok hx hu hr hn h1).bind fun y hy => ⟨_, rfl, ?_, ?_, ?_⟩
  · rw [Nat.add_mul, Nat.one_mul]; exact hy
  · simp only [Nat.add_mul]; omega
  · simp only [Nat.add_mul]; omega

theorem map_unfold {udf : σ → α → Res (σ × γ)} {junk : Nat → γ} {arg : DM α} {a : Mat α} (hx : arg.Is a) (s : σ) :
    mapKernel udf junk arg s = (do
      let x ← forLoop 0 a.rows (s, arg.h.start, 0, (DM.create a.rows a.cols junk).mem)
        fun _ (x : σ × Nat × Nat × Buf γ) => do
          let y ← forLoop 0 a.cols (x.1, x.2.2.2) fun c (z : σ × Buf γ) => do
            let v ← arg.mem.read (x.2.1 + c)
            let (s, v) ← udf z.1 v
            let m ← z.2.write (x.2.2.1 + c) v
            .ok (s, m)
          .ok (y.1, x.2.1 + arg.h.rowSkip, x.2.2.1 + a.cols, y.2)
      .ok (x.1, ⟨Hdr.new a.rows a.cols, x.2.2.2⟩)) := by
  have e1 : arg.numRows = a.rows := hx.rows
  have e2 : arg.numCols = a.cols := hx.cols
  unfold mapKernel
  rw [e1, e2]
  simp only [create_start]
  rfl

/-- **C360.** `map` calls the function on all cells, row by row from left to right, each exactly once and each in the state
the previous call has left; the result has the shape of the argument and consists of the returned values. -/
theorem C360_map (udf : σ → α → Res (σ × γ)) (junk : Nat → γ) (arg : DM α) (a : Mat α) (hx : arg.Is a) (S : Nat → σ)
    (V : Nat → γ) (hu : Calls udf a (a.rows * a.cols) S V) :
    Res.Ok (mapKernel udf junk arg (S 0)) (fun x => x.1 = S (a.rows * a.cols) ∧
      x.2.Is ⟨a.rows, a.cols, fun r c => V (r * a.cols + c)⟩) := by
  rw [map_unfold hx]
  refine (forLoop_ok (OInv arg a S V) 0 a.rows _ (Nat.zero_le _) ?_ ?_).bind ?_
  · exact ⟨⟨by simp, create_size _ _ _, fun i hi => by omega⟩, by simp, by simp⟩
  · intro r x _ hr hi
    have : r * a.cols + a.cols ≤ a.rows * a.cols := by
      have := Nat.mul_le_mul_right a.cols (show r + 1 ≤ a.rows by omega)
      rwa [Nat.add_mul, Nat.one_mul] at this
    exact outer_step hx hu hr this hi
  · rintro x ⟨⟨h1, h2, h3⟩, _, _⟩
    exact ⟨_, rfl, h1, is_new h2 fun r c hr hc => h3 _ (rm_lt hr hc (Nat.le_refl _))⟩

/-- **C360.** If a call fails, `map` fails in the same way, and no later call is made (the outcome depends only on the calls
before it). -/
theorem C360_map_fails (udf : σ → α → Res (σ × γ)) (junk : Nat → γ) (arg : DM α) (a : Mat α) (hx : arg.Is a) (S : Nat → σ)
    (V : Nat → γ) (r c : Nat) (hr : r < a.rows) (hc : c < a.cols) (hu : Calls udf a (r * a.cols + c) S V) (e : Err)
    (he : udf (S (r * a.cols + c)) (a.cell r c) = .error e) : mapKernel udf junk arg (S 0) = .error e := by
  rw [map_unfold hx]
  rw [forLoop_err (OInv arg a S V) hr ?_ r 0 _ (by omega) ?_ ?_]
  · rfl
  · rintro x ⟨h1, h2, h3⟩
    simp only [h2, h3]
    rw [row_err hx hr hc hu he h1]; rfl
  · exact ⟨⟨by simp, create_size _ _ _, fun i hi => by omega⟩, by simp, by simp⟩
  · intro r' x _ hr' hi
    have : r' * a.cols + a.cols ≤ r * a.cols + c := by
      have := Nat.mul_le_mul_right a.cols (show r' + 1 ≤ r by omega)
      rw [Nat.add_mul, Nat.one_mul] at this
      omega
    exact outer_step hx hu (by omega) this hi

/-- A function that numbers its calls, on a matrix with rows that do not lie next to each other. -/
example : ∃ v, exM.h.view 1 3 1 3 = .ok v ∧ Res.Ok (mapKernel (fun (n : Nat) (x : Nat) => .ok (n + 1, (n, x))) (fun _ => (0, 0)) ⟨v, exM.mem⟩ 0)
    (fun x => x.1 = 4 ∧ x.2.get 1 0 = .ok (2, 9)) := by
  exact ⟨_, rfl, _, rfl, rfl, rfl⟩

end Verif.Interop

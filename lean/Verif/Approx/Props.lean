/-
  The approximate number of distinct values (C287-C290).
-/
import Verif.Approx.Model
import Verif.Check.Special
import Mathlib.Data.Finset.Image
import Mathlib.Data.Finset.Prod
import Mathlib.Data.Finset.Max
import Mathlib.Order.Interval.Finset.Nat

namespace Verif.Approx
open Verif Verif.Csr Verif.Dense
variable {α : Type}

/-! ### Specification -/

/-- The hash values of the cells of a matrix. -/
def Hashes (hash : α → Nat) (a : Mat α) : Finset Nat :=
  (Finset.range a.rows ×ˢ Finset.range a.cols).image fun q => hash (a.cell q.1 q.2)

/-- `t` is the `K`-th smallest element of `S`. -/
def IsKth (S : Finset Nat) (K t : Nat) : Prop := t ∈ S ∧ (S.filter (· < t)).card + 1 = K

/-! ### A sequence of insertions -/

/-- All insertions. -/
def pushAll (K : Nat) : List Nat → Finset Nat → Res (Finset Nat)
  | [], s => .ok s
  | v :: l, s => push K s v >>= pushAll K l

theorem pushAll_append {K : Nat} : ∀ (l l' : List Nat) (s : Finset Nat), pushAll K (l ++ l') s = pushAll K l s >>= pushAll K l'
  | [], _, _ => rfl
  | v :: l, l', s => by
    simp only [List.cons_append, pushAll]
    cases push K s v with
    | error e => rfl
    | ok s' => exact pushAll_append l l' s'

theorem loop_pushAll {K : Nat} {body : Nat → Finset Nat → Res (Finset Nat)} {f : Nat → List Nat} : ∀ (k lo : Nat) (s : Finset Nat),
    (∀ i s, lo ≤ i → i < lo + k → body i s = pushAll K (f i) s) →
    forFrom lo k s body = pushAll K ((List.range' lo k).flatMap f) s
  | 0, _, _, _ => rfl
  | k + 1, lo, s, h => by
    rw [List.range'_succ, List.flatMap_cons, pushAll_append]
    show body lo s >>= (fun s' => forFrom (lo + 1) k s' body) = _
    rw [h lo s (by omega) (by omega)]
    congr 1
    funext s'
    exact loop_pushAll k (lo + 1) s' fun i s h1 h2 => h i s (by omega) (by omega)

theorem loop_push {K : Nat} {body : Nat → Finset Nat → Res (Finset Nat)} {f : Nat → Nat} {n : Nat} (s : Finset Nat)
    (h : ∀ i s, i < n → body i s = push K s (f i)) : forLoop 0 n s body = pushAll K ((List.range n).map f) s := by
  unfold forLoop
  rw [loop_pushAll (f := fun i => [f i]) (K := K)]
  · rw [Nat.sub_zero, List.range_eq_range', ← List.flatMap_singleton' ((List.range' 0 n).map f), List.flatMap_map]
  · intro i s _ h2
    rw [h i s (by omega)]
    show _ = push K s (f i) >>= fun s => .ok s
    cases push K s (f i) <;> rfl

theorem le_sup {s : Finset Nat} {v : Nat} (h : v ∈ s) : v ≤ s.sup id := Finset.le_sup (f := id) h

theorem sup_mem {s : Finset Nat} (h : s ≠ ∅) : s.sup id ∈ s := by
  obtain ⟨v, hv, e⟩ := Finset.exists_mem_eq_sup s (Finset.nonempty_iff_ne_empty.2 h) id
  rw [e]; exact hv

theorem card_insert_pop {s : Finset Nat} (h : s ≠ ∅) (v : Nat) :
    s.card - 1 ≤ (insert v (pop s)).card ∧ (insert v (pop s)).card ≤ s.card ∧ (v ∉ s → (insert v (pop s)).card = s.card) := by
  have h0 : 0 < s.card := Finset.card_pos.2 (Finset.nonempty_iff_ne_empty.2 h)
  have h1 : (pop s).card = s.card - 1 := by
    unfold pop
    rw [if_neg h, Finset.card_erase_of_mem (sup_mem h)]
  have h2 := Finset.card_insert_le v (pop s)
  have h3 := Finset.card_le_card (Finset.subset_insert v (pop s))
  refine ⟨by omega, by omega, fun hv => ?_⟩
  rw [Finset.card_insert_of_notMem, h1]
  · omega
  · unfold pop
    rw [if_neg h]
    exact fun h => hv (Finset.mem_of_mem_erase h)

/-- After any sequence of insertions into the empty set. -/
theorem pushAll_inv {K : Nat} (hK : 0 < K) : ∀ (l : List Nat) (s seen : Finset Nat),
    s ⊆ seen → (seen.card < K → s = seen) → (K ≤ seen.card → K - 1 ≤ s.card) → s.card ≤ K →
    Res.Ok (pushAll K l s) fun s' => s' ⊆ seen ∪ l.toFinset ∧ ((seen ∪ l.toFinset).card < K → s' = seen ∪ l.toFinset) ∧
      (K ≤ (seen ∪ l.toFinset).card → K - 1 ≤ s'.card) ∧ s'.card ≤ K
  | [], s, seen, h1, h2, h3, h4 => ⟨s, rfl, by simp only [List.toFinset_nil, Finset.union_empty]; exact ⟨h1, h2, h3, h4⟩⟩
  | v :: l, s, seen, h1, h2, h3, h4 => by
    have e : seen ∪ (v :: l).toFinset = insert v seen ∪ l.toFinset := by
      ext u
      simp only [Finset.mem_union, List.mem_toFinset, List.mem_cons, Finset.mem_insert]
      tauto
    rw [e]
    have hgo : ∀ s', push K s v = .ok s' → s' ⊆ insert v seen → ((insert v seen).card < K → s' = insert v seen) →
        (K ≤ (insert v seen).card → K - 1 ≤ s'.card) → s'.card ≤ K →
        Res.Ok (pushAll K (v :: l) s) fun s' => s' ⊆ insert v seen ∪ l.toFinset ∧
          ((insert v seen ∪ l.toFinset).card < K → s' = insert v seen ∪ l.toFinset) ∧
          (K ≤ (insert v seen ∪ l.toFinset).card → K - 1 ≤ s'.card) ∧ s'.card ≤ K := by
      intro s' hp g1 g2 g3 g4
      unfold pushAll
      rw [hp]
      exact pushAll_inv hK l s' (insert v seen) g1 g2 g3 g4
    by_cases hc : s.card < K
    · refine hgo (insert v s) (by unfold push; rw [if_pos hc]) (Finset.insert_subset_insert v h1) ?_ ?_ ?_
      · intro h
        have := Finset.card_le_card (Finset.subset_insert v seen)
        rw [h2 (by omega)]
      · intro h
        by_cases hs : seen.card < K
        · rw [h2 hs]; omega
        · have := h3 (by omega)
          have := Finset.card_le_card (Finset.subset_insert v s)
          omega
      · have := Finset.card_insert_le v s
        omega
    · have hne : s ≠ ∅ := by
        rintro rfl
        simp at hc
        omega
      have hfull : K ≤ seen.card := by
        have := Finset.card_le_card h1
        omega
      have hbig : K ≤ (insert v seen).card := by
        have := Finset.card_le_card (Finset.subset_insert v seen)
        omega
      have ht : top s = .ok (s.sup id) := by unfold top; rw [if_neg hne]
      by_cases hv : s.sup id > v
      · obtain ⟨c1, c2, _⟩ := card_insert_pop hne v
        refine hgo (insert v (pop s)) ?_ ?_ (fun h => by omega) (fun _ => by omega) (by omega)
        · unfold push
          rw [if_neg hc, ht]
          exact if_pos hv
        · refine Finset.insert_subset_insert v (Finset.Subset.trans ?_ h1)
          unfold pop
          rw [if_neg hne]
          exact Finset.erase_subset _ _
      · refine hgo s ?_ (Finset.Subset.trans h1 (Finset.subset_insert v seen)) (fun h => by omega) (fun _ => by omega) h4
        unfold push
        rw [if_neg hc, ht]
        exact if_neg hv

/-- After inserting pairwise different values, the set holds the smallest ones. -/
theorem pushAll_nodup {K : Nat} (hK : 0 < K) : ∀ (l : List Nat) (s seen : Finset Nat),
    l.Nodup → (∀ v ∈ l, v ∉ seen) → s ⊆ seen → s.card = min K seen.card → (∀ u ∈ s, ∀ v ∈ seen, v ∉ s → u < v) →
    Res.Ok (pushAll K l s) fun s' => s' ⊆ seen ∪ l.toFinset ∧ s'.card = min K (seen ∪ l.toFinset).card ∧
      ∀ u ∈ s', ∀ v ∈ seen ∪ l.toFinset, v ∉ s' → u < v
  | [], s, seen, _, _, h1, h2, h3 => ⟨s, rfl, by simpa using ⟨h1, h2, h3⟩⟩
  | v :: l, s, seen, hnd, hn, h1, h2, h3 => by
    have e : seen ∪ (v :: l).toFinset = insert v seen ∪ l.toFinset := by
      ext u
      simp only [Finset.mem_union, List.mem_toFinset, List.mem_cons, Finset.mem_insert]
      tauto
    rw [e]
    have hvs : v ∉ seen := hn v (by simp)
    have hvs' : v ∉ s := fun h => hvs (h1 h)
    have hcs : (insert v seen).card = seen.card + 1 := Finset.card_insert_of_notMem hvs
    have hgo : ∀ s', push K s v = .ok s' → s' ⊆ insert v seen → s'.card = min K (insert v seen).card →
        (∀ u ∈ s', ∀ w ∈ insert v seen, w ∉ s' → u < w) →
        Res.Ok (pushAll K (v :: l) s) fun s' => s' ⊆ insert v seen ∪ l.toFinset ∧ s'.card = min K (insert v seen ∪ l.toFinset).card ∧
          ∀ u ∈ s', ∀ w ∈ insert v seen ∪ l.toFinset, w ∉ s' → u < w := by
      intro s' hp g1 g2 g3
      unfold pushAll
      rw [hp]
      refine pushAll_nodup hK l s' (insert v seen) (List.nodup_cons.1 hnd).2 ?_ g1 g2 g3
      intro u hu hui
      rcases Finset.mem_insert.1 hui with rfl | hui
      · exact (List.nodup_cons.1 hnd).1 hu
      · exact hn u (List.mem_cons_of_mem _ hu) hui
    by_cases hc : s.card < K
    · have hss : s = seen := Finset.eq_of_subset_of_card_le h1 (by omega)
      subst hss
      refine hgo (insert v s) (by unfold push; rw [if_pos hc]) (Finset.Subset.refl _) (by omega) ?_
      intro u _ w hw hnw
      exact absurd hw hnw
    · have hne : s ≠ ∅ := by
        rintro rfl
        simp at hc
        omega
      have ht : top s = .ok (s.sup id) := by unfold top; rw [if_neg hne]
      have hpop : pop s = s.erase (s.sup id) := by unfold pop; rw [if_neg hne]
      by_cases hv : s.sup id > v
      · obtain ⟨_, _, c3⟩ := card_insert_pop hne v
        refine hgo (insert v (pop s)) ?_ ?_ (by rw [c3 hvs']; omega) ?_
        · unfold push
          rw [if_neg hc, ht]
          exact if_pos hv
        · refine Finset.insert_subset_insert v (Finset.Subset.trans ?_ h1)
          rw [hpop]
          exact Finset.erase_subset _ _
        · intro u hu w hw hnw
          have hw1 : w ≠ v := by rintro rfl; exact hnw (Finset.mem_insert_self _ _)
          have hw2 : w ∈ seen := (Finset.mem_insert.1 hw).resolve_left hw1
          have hw3 : w = s.sup id ∨ w ∉ s := by
            by_cases hws : w ∈ s
            · left
              by_contra hne'
              exact hnw (Finset.mem_insert_of_mem (by rw [hpop]; exact Finset.mem_erase.2 ⟨hne', hws⟩))
            · exact .inr hws
          have hwt : s.sup id ≤ w := by
            rcases hw3 with rfl | hw3
            · exact Nat.le_refl _
            · exact Nat.le_of_lt (h3 _ (sup_mem hne) w hw2 hw3)
          rcases Finset.mem_insert.1 hu with rfl | hu
          · omega
          · rw [hpop] at hu
            obtain ⟨u1, u2⟩ := Finset.mem_erase.1 hu
            have := le_sup u2
            omega
      · refine hgo s ?_ (Finset.Subset.trans h1 (Finset.subset_insert v seen)) (by omega) ?_
        · unfold push
          rw [if_neg hc, ht]
          exact if_neg hv
        · intro u hu w hw hnw
          rcases Finset.mem_insert.1 hw with rfl | hw
          · have := le_sup hu
            have hne' : u ≠ w := by rintro rfl; exact hvs' hu
            have : s.sup id ≠ w := by intro h; exact hvs' (h ▸ sup_mem hne)
            omega
          · exact h3 u hu w hw hnw

/-! ### The two loops -/

/-- The hash values in the order in which the kernel for dense matrices inserts them. -/
def denseSeq (hash : α → Nat) (a : Mat α) : List Nat :=
  (List.range a.rows).flatMap fun r => (List.range a.cols).map fun c => hash (a.cell r c)

/-- The hash values in the order in which the kernel for sparse matrices inserts them. -/
def csrSeq (hash : α → Nat) (zero : α) (x : CM α) : List Nat :=
  (if x.h.numRows * x.h.numCols > x.o x.h.numRows - x.o 0 then [hash zero] else []) ++
    (List.range x.h.numRows).flatMap fun r => (List.range (x.o (r + 1) - x.o r)).map fun i => hash (x.mem.vals.data (x.o r + i))

theorem approxDense_eq {fl : Nat → Nat → Nat} {hash : α → Nat} {K : Nat} {x : DM α} {a : Mat α} (hx : x.Is a) :
    approxDense fl hash K x = pushAll K (denseSeq hash a) ∅ >>= finish fl K := by
  have e1 := hx.rows; have e2 := hx.cols
  unfold approxDense
  congr 1
  unfold forLoop denseSeq
  rw [loop_pushAll (f := fun r => (List.range a.cols).map fun c => hash (a.cell r c)) (K := K)]
  · rw [Nat.sub_zero, ← List.range_eq_range', e1]
  · intro r s _ hr
    have := loop_push (K := K) (n := x.h.numCols) (f := fun c => hash (a.cell r c)) s
      (body := fun c s => do let el ← x.h.get x.mem r c; push K s (hash el)) (by
        intro c s hc
        have e : x.h.get x.mem r c = .ok (a.cell r c) := hx.2.2.2 r c (by omega) (by omega)
        simp only [e, Res.ok_bind])
    rw [e2] at this
    rw [e2]
    exact this

theorem approxCsr_eq {fl : Nat → Nat → Nat} {hash : α → Nat} {zero : α} {K : Nat} {x : CM α} (w : x.WF) :
    approxCsr fl hash zero K x = pushAll K (csrSeq hash zero x) ∅ >>= finish fl K := by
  unfold approxCsr csrSeq
  rw [w.numNonZeros, pushAll_append]
  simp only [Res.ok_bind]
  have h0 : zeroFirst hash zero K (x.h.numRows * x.h.numCols) (x.o x.h.numRows - x.o 0) =
      pushAll K (if x.h.numRows * x.h.numCols > x.o x.h.numRows - x.o 0 then [hash zero] else []) ∅ := by
    unfold zeroFirst
    split
    · show _ = push K ∅ (hash zero) >>= fun s => .ok s
      cases push K ∅ (hash zero) <;> rfl
    · rfl
  rw [h0]
  cases pushAll K (if x.h.numRows * x.h.numCols > x.o x.h.numRows - x.o 0 then [hash zero] else []) ∅ with
  | error e => rfl
  | ok s0 =>
    simp only [Res.ok_bind]
    congr 1
    unfold forLoop
    rw [loop_pushAll (f := fun r => (List.range (x.o (r + 1) - x.o r)).map fun i => hash (x.mem.vals.data (x.o r + i))) (K := K)]
    · rw [Nat.sub_zero, ← List.range_eq_range']
    · intro r s _ hr
      have hr' : r < x.h.numRows := by omega
      rw [w.rowPtr (by omega)]
      have : x.h.rowNumNonZeros x.mem r = .ok (x.o (r + 1) - x.o r) := by
        unfold CHdr.rowNumNonZeros
        rw [if_neg (by omega), w.off (by omega), w.off (by omega)]; rfl
      rw [this]
      simp only [Res.ok_bind]
      refine loop_push s ?_
      intro i s hi
      have := w.topV
      have := w.mono' (r := r + 1) (r' := x.h.numRows) (by omega) (by omega)
      rw [Buf.read_eq (by omega)]
      rfl

theorem mem_Hashes {hash : α → Nat} {a : Mat α} {v : Nat} :
    v ∈ Hashes hash a ↔ ∃ r c, r < a.rows ∧ c < a.cols ∧ hash (a.cell r c) = v := by
  unfold Hashes
  simp only [Finset.mem_image, Finset.mem_product, Finset.mem_range, Prod.exists]
  constructor
  · rintro ⟨r, c, ⟨h1, h2⟩, h3⟩; exact ⟨r, c, h1, h2, h3⟩
  · rintro ⟨r, c, h1, h2, h3⟩; exact ⟨r, c, ⟨h1, h2⟩, h3⟩

theorem denseSeq_toFinset (hash : α → Nat) (a : Mat α) : (denseSeq hash a).toFinset = Hashes hash a := by
  ext v
  rw [mem_Hashes, List.mem_toFinset]
  unfold denseSeq
  simp only [List.mem_flatMap, List.mem_range, List.mem_map]
  constructor
  · rintro ⟨r, h1, c, h2, h3⟩; exact ⟨r, c, h1, h2, h3⟩
  · rintro ⟨r, c, h1, h2, h3⟩; exact ⟨r, h1, c, h2, h3⟩

theorem csrSeq_toFinset (hash : α → Nat) {zero : α} {x : CM α} {a : Mat α} (hx : x.Is zero a) : (csrSeq hash zero x).toFinset = Hashes hash a := by
  have e1 := hx.rows; have e2 := hx.cols
  have w := hx.wf
  ext v
  rw [mem_Hashes, List.mem_toFinset]
  unfold csrSeq
  simp only [List.mem_append, List.mem_flatMap, List.mem_range, List.mem_map]
  constructor
  · rintro (h | ⟨r, hr, i, hi, h⟩)
    · split at h
      · rename_i hlt
        obtain ⟨r, c, h1, h2, h3⟩ := (Check.exists_unstored w).1 hlt
        refine ⟨r, c, by omega, by omega, ?_⟩
        rw [hx.rest r c (by omega) (by omega) fun p h1 h2 h4 => h3 (CM.mem_rowCols.2 ⟨p, h1, h2, h4⟩)]
        exact (List.mem_singleton.1 h).symm
      · simp at h
    · refine ⟨r, x.mem.cols.data (x.o r + i), by omega, ?_, ?_⟩
      · rw [← e2]; exact w.bound r _ hr (by omega) (by omega)
      · rw [hx.entry r _ (by omega) (by omega) (by omega)]; exact h
  · rintro ⟨r, c, h1, h2, h3⟩
    by_cases hc : c ∈ x.rowCols r
    · right
      obtain ⟨p, h4, h5, h6⟩ := CM.mem_rowCols.1 hc
      refine ⟨r, by omega, p - x.o r, by omega, ?_⟩
      rw [← h3, ← h6, hx.entry r p h1 h4 h5]
      congr 2
      omega
    · left
      rw [if_pos ((Check.exists_unstored w).2 ⟨r, c, by omega, by omega, hc⟩)]
      rw [hx.rest r c h1 h2 fun p h4 h5 h6 => hc (CM.mem_rowCols.2 ⟨p, h4, h5, h6⟩)] at h3
      simp [h3]

/-! ### Theorems -/

theorem exact_of_seq {fl : Nat → Nat → Nat} {K : Nat} {l : List Nat} {S : Finset Nat} (hS : l.toFinset = S) (h : S.card < K) :
    (pushAll K l ∅ >>= finish fl K) = .ok S.card := by
  obtain ⟨s, e, _, h2, _⟩ := pushAll_inv (K := K) (by omega) l ∅ ∅ (by simp) (by simp) (by simp; omega) (by simp)
  rw [Finset.empty_union, hS] at h2
  rw [e, h2 h]
  exact if_pos h

/-- **C287.** With fewer distinct hash values in the matrix than `K`, the result is their exact number — for a dense matrix (also
a view) and for a sparse one, in which all cells without entry count as one value. -/
theorem C287_fewer_than_K_exact (fl : Nat → Nat → Nat) (hash : α → Nat) (zero : α) (K : Nat) (a : Mat α) (h : (Hashes hash a).card < K) :
    (∀ x : DM α, x.Is a → approxDense fl hash K x = .ok (Hashes hash a).card) ∧
    (∀ x : CM α, x.Is zero a → approxCsr fl hash zero K x = .ok (Hashes hash a).card) := by
  constructor
  · intro x hx
    rw [approxDense_eq hx]
    exact exact_of_seq (denseSeq_toFinset hash a) h
  · intro x hx
    rw [approxCsr_eq hx.wf]
    exact exact_of_seq (csrSeq_toFinset hash hx) h

/-- What the kernels return once they have seen at least `K` distinct hash values: either `K - 1`, or the estimate for a hash value
of the matrix that has at least `K - 1` smaller ones. -/
def Estimated (fl : Nat → Nat → Nat) (K : Nat) (S : Finset Nat) (res : Res Nat) : Prop :=
  res = .ok (K - 1) ∨ ∃ t ∈ S, K ≤ (S.filter (· < t)).card + 1 ∧
    (res = .ok (fl K t) ∨ t = 0 ∧ ∃ m, res = .error (.ub m))

theorem finish_full {fl : Nat → Nat → Nat} {K : Nat} {s S : Finset Nat} (hK : 0 < K) (h1 : s ⊆ S) (h2 : s.card = K) :
    s.sup id ∈ s ∧ (s.filter (· < s.sup id)).card + 1 = K ∧
      finish fl K s = if s.sup id = 0 then .error (.ub "conversion of a non-finite double to size_t") else .ok (fl K (s.sup id)) := by
  have hne : s ≠ ∅ := by rintro rfl; simp at h2; omega
  have e : s.filter (· < s.sup id) = s.erase (s.sup id) := by
    ext u
    simp only [Finset.mem_filter, Finset.mem_erase]
    constructor
    · rintro ⟨h3, h4⟩; exact ⟨by omega, h3⟩
    · rintro ⟨h3, h4⟩; exact ⟨h4, by have := le_sup h4; omega⟩
  refine ⟨sup_mem hne, ?_, ?_⟩
  · rw [e, Finset.card_erase_of_mem (sup_mem hne)]
    omega
  · unfold finish
    rw [if_neg (by omega)]
    have ht : top s = .ok (s.sup id) := by unfold top; rw [if_neg hne]
    rw [ht]
    rfl

theorem estimated_of_seq {fl : Nat → Nat → Nat} {K : Nat} {l : List Nat} {S : Finset Nat} (hS : l.toFinset = S) (hK : 0 < K) (h : K ≤ S.card) :
    Estimated fl K S (pushAll K l ∅ >>= finish fl K) := by
  obtain ⟨s, e, h1, h2, h3, h4⟩ := pushAll_inv (K := K) hK l ∅ ∅ (by simp) (by simp) (by simp; omega) (by simp)
  rw [Finset.empty_union, hS] at h1 h2 h3
  rw [e]
  simp only [Res.ok_bind]
  by_cases hc : s.card < K
  · left
    have := h3 h
    unfold finish
    rw [if_pos hc]
    congr 1
    omega
  · right
    obtain ⟨f1, f2, f3⟩ := finish_full (fl := fl) hK h1 (by omega)
    refine ⟨s.sup id, h1 f1, ?_, ?_⟩
    · have := Finset.card_le_card (Finset.filter_subset_filter (· < s.sup id) h1)
      omega
    · rw [f3]
      by_cases h0 : s.sup id = 0
      · right; exact ⟨h0, _, if_pos h0⟩
      · left; exact if_neg h0

theorem kth_of_seq {fl : Nat → Nat → Nat} {K : Nat} {l : List Nat} {S : Finset Nat} (hS : l.toFinset = S) (hK : 0 < K) (h : K ≤ S.card)
    (hn : l.Nodup) : ∃ t, IsKth S K t ∧
      (pushAll K l ∅ >>= finish fl K) = if t = 0 then .error (.ub "conversion of a non-finite double to size_t") else .ok (fl K t) := by
  obtain ⟨s, e, h1, h2, h3⟩ := pushAll_nodup (K := K) hK l ∅ ∅ hn (by simp) (by simp) (by simp) (by simp)
  rw [Finset.empty_union, hS] at h1 h2 h3
  obtain ⟨f1, f2, f3⟩ := finish_full (fl := fl) hK h1 (by omega)
  refine ⟨s.sup id, ⟨h1 f1, ?_⟩, by rw [e]; exact f3⟩
  rw [← f2]
  congr 2
  ext u
  simp only [Finset.mem_filter]
  constructor
  · rintro ⟨g1, g2⟩
    refine ⟨?_, g2⟩
    by_contra hu
    have := h3 _ f1 u g1 hu
    omega
  · rintro ⟨g1, g2⟩; exact ⟨h1 g1, g2⟩

theorem denseSeq_nodup {hash : α → Nat} {a : Mat α}
    (h : ∀ r c r' c', r < a.rows → c < a.cols → r' < a.rows → c' < a.cols → hash (a.cell r c) = hash (a.cell r' c') → r = r' ∧ c = c') :
    (denseSeq hash a).Nodup := by
  unfold denseSeq
  rw [List.nodup_flatMap]
  constructor
  · intro r hr
    rw [List.mem_range] at hr
    refine (List.nodup_map_iff_inj_on List.nodup_range).2 ?_
    intro c hc c' hc' he
    exact (h r c r c' hr (List.mem_range.1 hc) hr (List.mem_range.1 hc') he).2
  · refine List.Nodup.pairwise_of_forall_ne List.nodup_range ?_
    intro r hr r' hr' hne
    show List.Disjoint _ _
    rw [List.disjoint_left]
    intro v h1 h2
    obtain ⟨c, hc, e1⟩ := List.mem_map.1 h1
    obtain ⟨c', hc', e2⟩ := List.mem_map.1 h2
    exact hne (h r c r' c' (List.mem_range.1 hr) (List.mem_range.1 hc) (List.mem_range.1 hr') (List.mem_range.1 hc') (e1.trans e2.symm)).1

/-- Position `p` of the value array belongs to row `r`. -/
theorem csrSeq_nodup {hash : α → Nat} {zero : α} {x : CM α} {a : Mat α} (hx : x.Is zero a)
    (h : ∀ r c r' c', r < a.rows → c ∈ x.rowCols r → r' < a.rows → c' < a.cols → hash (a.cell r c) = hash (a.cell r' c') → r = r' ∧ c = c') :
    (csrSeq hash zero x).Nodup := by
  have e1 := hx.rows; have e2 := hx.cols
  have w := hx.wf
  have hmem : ∀ {r i}, r < a.rows → i < x.o (r + 1) - x.o r → x.mem.cols.data (x.o r + i) ∈ x.rowCols r := fun hr hi =>
    CM.mem_rowCols.2 ⟨_, by omega, by omega, rfl⟩
  have hval : ∀ {r i}, r < a.rows → i < x.o (r + 1) - x.o r → x.mem.vals.data (x.o r + i) = a.cell r (x.mem.cols.data (x.o r + i)) := fun hr hi =>
    (hx.entry _ _ hr (by omega) (by omega)).symm
  have hcol : ∀ {r i}, r < a.rows → i < x.o (r + 1) - x.o r → x.mem.cols.data (x.o r + i) < a.cols := fun hr hi => by
    rw [← e2]; exact w.bound _ _ (e1 ▸ hr) (by omega) (by omega)
  unfold csrSeq
  rw [List.nodup_append]
  refine ⟨by split <;> simp, ?_, ?_⟩
  · rw [List.nodup_flatMap]
    constructor
    · intro r hr
      have hr : r < a.rows := by rw [← e1]; exact List.mem_range.1 hr
      refine (List.nodup_map_iff_inj_on List.nodup_range).2 ?_
      intro i hi j hj he
      have hi := List.mem_range.1 hi
      have hj := List.mem_range.1 hj
      rw [hval hr hi, hval hr hj] at he
      have := (h _ _ _ _ hr (hmem hr hi) hr (hcol hr hj) he).2
      rcases Nat.lt_trichotomy i j with hlt | heq | hgt
      · have := w.sorted r (x.o r + i) (x.o r + j) (by omega) (by omega) (by omega) (by omega); omega
      · exact heq
      · have := w.sorted r (x.o r + j) (x.o r + i) (by omega) (by omega) (by omega) (by omega); omega
    · refine List.Nodup.pairwise_of_forall_ne List.nodup_range ?_
      intro r hr r' hr' hne
      have hr : r < a.rows := by rw [← e1]; exact List.mem_range.1 hr
      have hr' : r' < a.rows := by rw [← e1]; exact List.mem_range.1 hr'
      show List.Disjoint _ _
      rw [List.disjoint_left]
      intro v h1 h2
      obtain ⟨i, hi, g1⟩ := List.mem_map.1 h1
      obtain ⟨j, hj, g2⟩ := List.mem_map.1 h2
      have hi := List.mem_range.1 hi
      have hj := List.mem_range.1 hj
      rw [hval hr hi] at g1
      rw [hval hr' hj] at g2
      exact hne (h _ _ _ _ hr (hmem hr hi) hr' (hcol hr' hj) (g1.trans g2.symm)).1
  · intro v hv u hu hvu
    subst hvu
    split at hv
    · rename_i hlt
      obtain ⟨r, c, h1, h2, h3⟩ := (Check.exists_unstored w).1 hlt
      simp only [List.mem_flatMap, List.mem_range, List.mem_map] at hu
      obtain ⟨r', hr', i, hi, g⟩ := hu
      have hr' : r' < a.rows := by omega
      rw [hval hr' hi] at g
      have hz := hx.rest r c (by omega) (by omega) fun p h1 h2 h4 => h3 (CM.mem_rowCols.2 ⟨p, h1, h2, h4⟩)
      have hv : v = hash zero := by simpa using hv
      rw [hv, ← hz] at g
      obtain ⟨q1, q2⟩ := h _ _ _ _ hr' (hmem hr' hi) (by omega) (by omega) g
      subst q1
      exact h3 (q2 ▸ hmem hr' hi)
    · simp at hv

/-- **C288.** With at least `K ≥ 1` distinct hash values in the matrix, the result is never below what is certain, and never computed from a
value that is too small: it is `K - 1` or the estimate for a hash value of the matrix with at least `K - 1` smaller ones. If
no two cells of the matrix (for a sparse matrix: no entry and any other cell) have the same hash value, it is the estimate for
exactly the `K`-th smallest hash value (undefined if that one is zero). -/
theorem C288_estimate (fl : Nat → Nat → Nat) (hash : α → Nat) (zero : α) (K : Nat) (hK : 0 < K) (a : Mat α) (h : K ≤ (Hashes hash a).card) :
    (∀ x : DM α, x.Is a → Estimated fl K (Hashes hash a) (approxDense fl hash K x) ∧
      ((∀ r c r' c', r < a.rows → c < a.cols → r' < a.rows → c' < a.cols → hash (a.cell r c) = hash (a.cell r' c') → r = r' ∧ c = c') →
        ∃ t, IsKth (Hashes hash a) K t ∧ (0 < t → approxDense fl hash K x = .ok (fl K t)))) ∧
    (∀ x : CM α, x.Is zero a → Estimated fl K (Hashes hash a) (approxCsr fl hash zero K x) ∧
      ((∀ r c r' c', r < a.rows → c ∈ x.rowCols r → r' < a.rows → c' < a.cols → hash (a.cell r c) = hash (a.cell r' c') → r = r' ∧ c = c') →
        ∃ t, IsKth (Hashes hash a) K t ∧ (0 < t → approxCsr fl hash zero K x = .ok (fl K t)))) := by
  constructor
  · intro x hx
    rw [approxDense_eq hx]
    refine ⟨estimated_of_seq (denseSeq_toFinset hash a) hK h, fun hd => ?_⟩
    obtain ⟨t, h1, h2⟩ := kth_of_seq (fl := fl) (denseSeq_toFinset hash a) hK h (denseSeq_nodup hd)
    exact ⟨t, h1, fun h0 => by rw [h2, if_neg (by omega)]⟩
  · intro x hx
    rw [approxCsr_eq hx.wf]
    refine ⟨estimated_of_seq (csrSeq_toFinset hash hx) hK h, fun hd => ?_⟩
    obtain ⟨t, h1, h2⟩ := kth_of_seq (fl := fl) (csrSeq_toFinset hash hx) hK h (csrSeq_nodup hx hd)
    exact ⟨t, h1, fun h0 => by rw [h2, if_neg (by omega)]⟩

/-! ### Repeated values -/

/-- A column with the given values. -/
def colOf (l : List Nat) : DM Nat := ⟨Hdr.new l.length 1, Buf.ofList l⟩

theorem colOf_is (l : List Nat) : (colOf l).Is ⟨l.length, 1, fun r _ => l.getD r 0⟩ := by
  have w : (colOf l).WF := by
    constructor
    · simp [colOf, Hdr.new]
    · simp [colOf, Hdr.new]
    · intro r c hr hc
      simp only [colOf, Hdr.new, Buf.ofList] at hr hc ⊢
      omega
    · intro _; rfl
  refine ⟨w, rfl, rfl, ?_⟩
  intro r c hr hc
  have hc : c = 0 := by simpa using hc
  subst hc
  have := w.get (r := r) (c := 0) hr (by simp [colOf, Hdr.new])
  rw [this]
  simp [colOf, Hdr.new, Buf.ofList]

theorem denseSeq_col (l : List Nat) : denseSeq (fun v : Nat => v) ⟨l.length, 1, fun r _ => l.getD r 0⟩ = l := by
  unfold denseSeq
  have e : (List.range l.length).flatMap (fun r => (List.range 1).map fun _ => l.getD r 0) = (List.range l.length).map fun r => l.getD r 0 := by
    rw [← List.flatMap_singleton' ((List.range l.length).map _), List.flatMap_map]
    rfl
  refine e.trans ?_
  apply List.ext_getElem
  · simp
  · intro i h1 h2
    simp [h2]

theorem upTo_toFinset (n : Nat) : (List.range' 1 n).toFinset = Finset.Icc 1 n := by
  ext v
  simp only [List.mem_toFinset, List.mem_range'_1, Finset.mem_Icc]
  omega

/-- **C289, refuted.** The result depends on the order of the rows as soon as a value occurs twice: for every `K ≥ 2` and every
number `n ≥ K` of distinct values, however large, the column `1, 2, …, n, 1` has the result `K - 1`, while the column
`1, 1, 2, …, n` has the estimate for the `K`-th smallest value, `K`. (The hash function is the identity here: only the order of the
hash values matters.) -/
theorem C289_order_dependent_partial (fl : Nat → Nat → Nat) (K n : Nat) (hK : 2 ≤ K) (hn : K ≤ n) :
    approxDense fl (fun v => v) K (colOf (List.range' 1 n ++ [1])) = .ok (K - 1) ∧
    approxDense fl (fun v => v) K (colOf (1 :: List.range' 1 n)) = .ok (fl K K) := by
  rw [approxDense_eq (colOf_is _), approxDense_eq (colOf_is _), denseSeq_col, denseSeq_col]
  have hcard : (Finset.Icc 1 n).card = n := by simp
  constructor
  · obtain ⟨s, e, h1, h2, h3⟩ := pushAll_nodup (K := K) (by omega) (List.range' 1 n) ∅ ∅ (List.nodup_range') (by simp) (by simp) (by simp) (by simp)
    rw [Finset.empty_union, upTo_toFinset] at h1 h2 h3
    rw [hcard] at h2
    have hc : s.card = K := by omega
    have hne : s ≠ ∅ := by rintro rfl; simp at hc; omega
    have m1 : 1 ∈ s := by
      by_contra hm
      have := h3 _ (sup_mem hne) 1 (Finset.mem_Icc.2 (by omega)) hm
      have := (Finset.mem_Icc.1 (h1 (sup_mem hne))).1
      omega
    have hs : s.sup id > 1 := by
      by_contra hle
      have : s ⊆ {1} := by
        intro u hu
        have := le_sup hu
        have := (Finset.mem_Icc.1 (h1 hu)).1
        exact Finset.mem_singleton.2 (by omega)
      have := Finset.card_le_card this
      simp at this
      omega
    have hp : pop s = s.erase (s.sup id) := by unfold pop; rw [if_neg hne]
    have hi : insert 1 (pop s) = pop s := by
      rw [Finset.insert_eq_self, hp]
      exact Finset.mem_erase.2 ⟨by omega, m1⟩
    have hpush : push K s 1 = .ok (pop s) := by
      unfold push
      have ht : top s = .ok (s.sup id) := by unfold top; rw [if_neg hne]
      rw [if_neg (by omega), ht]
      simp only [Res.ok_bind]
      rw [if_pos hs, hi]
    have hcp : (pop s).card = K - 1 := by rw [hp, Finset.card_erase_of_mem (sup_mem hne), hc]
    rw [pushAll_append, e]
    simp only [Res.ok_bind, pushAll, hpush]
    unfold finish
    rw [if_pos (by omega), hcp]
  · have h0 : pushAll K (1 :: List.range' 1 n) ∅ = pushAll K (List.range' 1 n) ∅ := by
      have hr : List.range' 1 n = 1 :: List.range' 2 (n - 1) := by
        obtain ⟨m, rfl⟩ : ∃ m, n = m + 1 := ⟨n - 1, by omega⟩
        rw [List.range'_succ]; rfl
      have p1 : push K ∅ 1 = .ok {1} := by
        unfold push
        rw [if_pos (by simp; omega)]
        rfl
      have p2 : push K {1} 1 = .ok {1} := by
        unfold push
        rw [if_pos (by simp; omega)]
        rfl
      rw [hr]
      simp only [pushAll, p1, p2, Res.ok_bind]
    rw [h0]
    obtain ⟨t, ⟨h1, h2⟩, h3⟩ := kth_of_seq (fl := fl) (K := K) (upTo_toFinset n) (by omega) (by omega) (List.nodup_range')
    rw [Finset.mem_Icc] at h1
    have : (Finset.Icc 1 n).filter (· < t) = Finset.Icc 1 (t - 1) := by
      ext u
      simp only [Finset.mem_filter, Finset.mem_Icc]
      omega
    rw [this, Nat.card_Icc] at h2
    have : t = K := by omega
    subst this
    rw [h3, if_neg (by omega)]

/-- **C290, refuted.** With `K = 0`, every call is undefined: also that for an empty matrix dereferences the last element of an
empty set. -/
theorem C290_K_zero_undefined_partial (fl : Nat → Nat → Nat) (hash : α → Nat) (zero : α) (a : Mat α) :
    (∀ x : DM α, x.Is a → (approxDense fl hash 0 x).IsUB) ∧ (∀ x : CM α, x.Is zero a → (approxCsr fl hash zero 0 x).IsUB) := by
  have h : ∀ l, (pushAll 0 l ∅ >>= finish fl 0).IsUB := by
    intro l
    cases l <;> exact ⟨_, rfl⟩
  constructor
  · intro x hx
    rw [approxDense_eq hx]
    exact h _
  · intro x hx
    rw [approxCsr_eq hx.wf]
    exact h _

/-! ### Examples -/

/-- Three distinct values, and fewer than `K = 5`: the hypotheses of C287 hold, and the result is 3. -/
example : (Hashes (fun v : Nat => v) ⟨4, 1, fun r _ => [7, 9, 7, 3].getD r 0⟩).card = 3 ∧
    approxDense (fun _ _ => 0) (fun v => v) 5 (colOf [7, 9, 7, 3]) = .ok 3 := by
  refine ⟨by decide, ?_⟩
  exact (C287_fewer_than_K_exact (fun _ _ => 0) (fun v : Nat => v) 0 5 ⟨4, 1, fun r _ => [7, 9, 7, 3].getD r 0⟩ (by decide)).1 _ (colOf_is [7, 9, 7, 3])

/-- Four different cells, `K = 2`: the estimate for the second smallest value, 7. -/
example : approxDense (fun K t => 100 * K + t) (fun v => v) 2 (colOf [9, 7, 8, 3]) = .ok 207 := by
  decide +kernel

end Verif.Approx

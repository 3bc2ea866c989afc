/-
  C263-C266: matrices and frames read from Matrix Market files.
-/
import Verif.Mtx.Files

namespace Verif.Mtx
open Verif Verif.Io
variable {VT : Type}

/-! ### Specification -/

/-- The dense matrix that the entries stand for: given values at their positions, zero elsewhere. -/
def DenseOf (N : Num VT) (sym : Sym) (rows cols : Nat) (items : List (Item VT)) (m : Dense VT) : Prop :=
  m.rows = rows ∧ m.cols = cols ∧ m.vals.size = rows * cols ∧ ∀ i j, i < rows → j < cols →
    (∀ v, Gives N sym items i j v → m.vals.data (i * cols + j) = v) ∧ ((¬ ∃ v, Gives N sym items i j v) → m.vals.data (i * cols + j) = N.zero)

/-- Columns and values of a row of a sparse matrix. -/
def Csr.row (m : Csr VT) (r : Nat) : List (Nat × VT) :=
  (List.range (m.offs.data (r + 1) - m.offs.data r)).map fun k => (m.idxs.data (m.offs.data r + k), m.vals.data (m.offs.data r + k))

/-- The sparse matrix that the entries stand for: its arrays are well-formed, each row is sorted by column, and it has exactly the given entries. -/
def CsrOf (N : Num VT) (sym : Sym) (rows cols : Nat) (items : List (Item VT)) (m : Csr VT) : Prop :=
  m.rows = rows ∧ m.cols = cols ∧ m.offs.size = rows + 1 ∧ m.offs.data 0 = 0 ∧ m.offs.data rows = m.idxs.size ∧ m.idxs.size = m.vals.size ∧
    (∀ r, r < rows → m.offs.data r ≤ m.offs.data (r + 1)) ∧
    ∀ r, r < rows → (m.row r).Pairwise (fun a b => a.1 < b.1) ∧ ∀ c v, (c, v) ∈ m.row r ↔ Gives N sym items r c v

/-- The frame that the entries stand for. -/
def FrameOf {Cell : Type} (N : Num VT) (conv : VT → Cell) (zeroC : Cell) (sym : Sym) (rows cols : Nat) (items : List (Item VT)) (m : Fr Cell) : Prop :=
  m.rows = rows ∧ m.cols = cols ∧ (∀ j, j < cols → (m.col j).size = rows) ∧ ∀ i j, i < rows → j < cols →
    (∀ v, Gives N sym items i j v → (m.col j).data i = conv v) ∧ ((¬ ∃ v, Gives N sym items i j v) → (m.col j).data i = zeroC)

/-! ### Dense matrices -/

theorem cell_inj {cols i j i' j' : Nat} (hj : j < cols) (hj' : j' < cols) (h : i * cols + j = i' * cols + j') : i = i' ∧ j = j' := by
  have h1 : (i * cols + j) / cols = i := by rw [Nat.mul_comm, Nat.mul_add_div (by omega), Nat.div_eq_of_lt hj]; rfl
  have h2 : (i' * cols + j') / cols = i' := by rw [Nat.mul_comm, Nat.mul_add_div (by omega), Nat.div_eq_of_lt hj']; rfl
  have : i = i' := by rw [← h1, ← h2, h]
  subst this
  exact ⟨rfl, by omega⟩

theorem cell_lt {rows cols i j : Nat} (hi : i < rows) (hj : j < cols) : i * cols + j < rows * cols :=
  calc i * cols + j < i * cols + cols := by omega
    _ = (i + 1) * cols := by rw [Nat.add_mul, Nat.one_mul]
    _ ≤ rows * cols := Nat.mul_le_mul_right _ hi

theorem fold_dense {rows cols : Nat} (hrc : rows * cols < 2 ^ 64) : ∀ (E : List (Entry VT)), (∀ e ∈ E, e.row < rows ∧ e.col < cols) → ∀ b : Buf VT, b.size = rows * cols →
    Res.Ok (E.foldlM (fun (b : Buf VT) e => b.write ((e.row * cols + e.col) % 2 ^ 64) e.val) b) fun b' => b'.size = rows * cols ∧
      ∀ i j, i < rows → j < cols → (∃ e ∈ E, e.row = i ∧ e.col = j ∧ b'.data (i * cols + j) = e.val) ∨
        ((∀ e ∈ E, ¬ (e.row = i ∧ e.col = j)) ∧ b'.data (i * cols + j) = b.data (i * cols + j))
  | [], _, b, hb => ⟨b, rfl, hb, fun i j _ _ => .inr ⟨by simp, rfl⟩⟩
  | e :: E, hE, b, hb => by
    have he := hE e (by simp)
    have hlt := cell_lt he.1 he.2
    rw [List.foldlM_cons]
    simp only [Nat.mod_eq_of_lt (Nat.lt_trans hlt hrc)]
    rw [Buf.write_eq (by omega), Res.ok_bind]
    refine (fold_dense hrc E (fun x hx => hE x (by simp [hx])) (b.put (e.row * cols + e.col) e.val) hb).mono fun b' ⟨h1, h2⟩ => ⟨h1, fun i j hi hj => ?_⟩
    rcases h2 i j hi hj with ⟨x, hx, h3⟩ | ⟨h3, h4⟩
    · exact .inl ⟨x, by simp [hx], h3⟩
    · rw [Buf.put_data] at h4
      by_cases hij : e.row = i ∧ e.col = j
      · left
        refine ⟨e, by simp, hij.1, hij.2, ?_⟩
        rw [h4, if_pos (by rw [hij.1, hij.2])]
      · right
        refine ⟨fun x hx => ?_, ?_⟩
        · rcases List.mem_cons.1 hx with rfl | hx
          · exact hij
          · exact h3 x hx
        · rw [h4, if_neg]
          intro h
          have := cell_inj hj he.2 h
          exact hij ⟨this.1.symm, this.2.symm⟩

theorem dense_of_opened {N : Num VT} {field : Field} {sym : Sym} {rows cols : Nat} {items : List (Item VT)} {text : List Char} (hp : Proper sym rows cols items)
    (hrc : rows * cols < 2 ^ 64) (h : ∃ m, MM.open (some text) = .ok m ∧ Opened N field sym rows cols items m) (junk : Entry VT) (mem : Nat → VT) :
    Res.Ok (readDense N (some text) junk mem) (DenseOf N sym rows cols items) := by
  obtain ⟨m, hm, ho⟩ := h
  obtain ⟨it, hit, hy⟩ := ho.first junk
  unfold readDense
  rw [hm, Res.ok_bind]
  simp only [hit, Res.ok_bind, forEach_yields hy _ _ ho.fuel, ho.hrows, ho.hcols]
  refine (fold_dense hrc _ (fun e he => hp.gives_inside (mem_expandAll he)) _ rfl).bind fun b ⟨h1, h2⟩ => Res.ok_iff.2 ⟨rfl, rfl, h1, fun i j hi hj => ⟨fun v hv => ?_, fun hn => ?_⟩⟩
  · rcases h2 i j hi hj with ⟨e, he, rfl, rfl, h3⟩ | ⟨h3, _⟩
    · rw [h3]
      exact hp.functional (mem_expandAll he) hv
    · exact absurd ⟨rfl, rfl⟩ (h3 _ (gives_expandAll hv))
  · rcases h2 i j hi hj with ⟨e, he, rfl, rfl, h3⟩ | ⟨_, h3⟩
    · exact absurd ⟨_, mem_expandAll he⟩ hn
    · rw [h3]
      simp only
      rw [if_pos]
      exact fun hf => hn (ho.full hf i j hi hj)

theorem CoordFile.area {N : Num VT} {field : Field} {sym : Sym} {rows cols : Nat} {items : List (Item VT)} {text : List Char}
    (h : CoordFile N field sym rows cols items text) : rows * cols < 2 ^ 64 := by
  have h1 : rows * cols ≤ rows * 2 ^ 31 := Nat.mul_le_mul_left _ (by have := h.small; omega)
  have h2 := h.small.1
  omega

/-- C263: reading a file in coordinate format. -/
theorem C263_dense_coordinate {N : Num VT} {field : Field} {sym : Sym} {rows cols : Nat} {items : List (Item VT)} {text : List Char}
    (h : CoordFile N field sym rows cols items text) (junk : Entry VT) (mem : Nat → VT) :
    Res.Ok (readDense N (some text) junk mem) (DenseOf N sym rows cols items) :=
  dense_of_opened h.proper h.area h.opened junk mem

/-- C264: reading a file in array format. -/
theorem C264_dense_array {N : Num VT} {field : Field} {sym : Sym} {rows cols : Nat} {items : List (Item VT)} {text : List Char}
    (h : ArrayFile N field sym rows cols items text) (junk : Entry VT) (mem : Nat → VT) :
    Res.Ok (readDense N (some text) junk mem) (DenseOf N sym rows cols items) :=
  dense_of_opened h.proper h.small.2.2 h.opened junk mem

/-! ### Sparse matrices -/

def pos (e : Entry VT) : Nat × Nat := (e.row, e.col)

/-- Index in a list sorted by rows. -/
theorem sorted_index {L : List (Nat × Nat)} (h : RowSorted L) {k : Nat} {p : Nat × Nat} (hk : L[k]? = some p) (r : Nat) : k < below L r ↔ p.1 < r := by
  induction L generalizing k with
  | nil => simp at hk
  | cons q L ih =>
    obtain ⟨h1, h2⟩ := List.pairwise_cons.1 h
    by_cases hq : q.1 < r
    · have hb : below (q :: L) r = below L r + 1 := by simp [below, hq]
      cases k with
      | zero =>
        simp at hk
        subst hk
        simp [hb, hq]
      | succ k =>
        rw [List.getElem?_cons_succ] at hk
        rw [hb, ← ih h2 hk]
        omega
    · have hb : below (q :: L) r = 0 := by
        unfold below
        rw [List.filter_eq_nil_iff.2]
        · rfl
        · intro x hx
          rcases List.mem_cons.1 hx with rfl | hx
          · simpa using hq
          · have := h1 x hx
            simp
            omega
      have hp : q.1 ≤ p.1 := by
        rcases List.mem_cons.1 (List.mem_of_getElem? hk) with rfl | hx
        · exact Nat.le_refl _
        · exact h1 p hx
      omega

theorem place_ok {rows nnz : Nat} (B : List (Entry VT)) : ∀ (A : List (Entry VT)) (m : Csr VT) (rowIdx : Nat), RowSorted ((A ++ B).map pos) →
    (∀ e ∈ B, e.row < rows) → (A ++ B).length = nnz → m.offs.size = rows + 1 → m.idxs.size = nnz → m.vals.size = nnz →
    rowIdx ≤ rows → (∀ e ∈ A, e.row ≤ rowIdx) → (∀ e ∈ B, rowIdx ≤ e.row) → (∀ r, r ≤ rowIdx → m.offs.data r = below (A.map pos) r) →
    (∀ k e, A[k]? = some e → m.idxs.data k = e.col ∧ m.vals.data k = e.val) →
    Res.Ok (place B m A.length rowIdx) fun st => st.1.rows = m.rows ∧ st.1.cols = m.cols ∧ st.1.offs.size = rows + 1 ∧ st.1.idxs.size = nnz ∧ st.1.vals.size = nnz ∧
      st.2.1 = nnz ∧ st.2.2 ≤ rows ∧ (∀ e ∈ A ++ B, e.row ≤ st.2.2) ∧ (∀ r, r ≤ st.2.2 → st.1.offs.data r = below ((A ++ B).map pos) r) ∧
      ∀ k e, (A ++ B)[k]? = some e → st.1.idxs.data k = e.col ∧ st.1.vals.data k = e.val := by
  induction B with
  | nil =>
    intro A m rowIdx _ _ hl h1 h2 h3 h4 h5 _ h7 h8
    rw [List.append_nil] at hl ⊢
    exact ⟨_, rfl, rfl, rfl, h1, h2, h3, hl, h4, h5, h7, h8⟩
  | cons p B ih =>
    intro A m rowIdx hs hb hl h1 h2 h3 h4 h5 h6 h7 h8
    have hp := hb p (by simp)
    have hp6 := h6 p (by simp)
    unfold place
    refine (fillRows_ok (by omega)).bind fun offs ⟨o1, o2⟩ => ?_
    have hlen : A.length < nnz := by rw [← hl]; simp
    rw [Buf.write_eq (by omega), Res.ok_bind, Buf.write_eq (by omega), Res.ok_bind]
    have e : A ++ p :: B = (A ++ [p]) ++ B := by simp
    rw [e] at hs hl ⊢
    have hsB : ∀ q ∈ B, p.row ≤ q.row := by
      rw [List.map_append] at hs
      have h := (List.pairwise_append.1 hs).2.2
      exact fun q hq => h (pos p) (by simp) (pos q) (List.mem_map_of_mem hq)
    have hmax : max rowIdx p.row = p.row := by omega
    rw [hmax]
    have hres := ih (A ++ [p]) { m with offs := offs, idxs := m.idxs.put A.length p.col, vals := m.vals.put A.length p.val } p.row hs
      (fun q hq => hb q (by simp [hq])) hl (by simp only; omega) h2 h3 (by omega) (by
        intro q hq
        simp only [List.mem_append, List.mem_singleton] at hq
        rcases hq with hq | rfl
        · have := h5 q hq; omega
        · exact Nat.le_refl _) hsB (by
        intro r hr
        simp only
        have hp0 : below [pos p] r = 0 := by simp [below, pos]; omega
        rw [o2 r, List.map_append, List.map_singleton, below_append, hp0, Nat.add_zero]
        by_cases hr2 : r ≤ rowIdx
        · rw [if_neg (by omega)]; exact h7 r hr2
        · rw [if_pos (by omega)]
          unfold below
          rw [List.filter_eq_self.2 fun q hq => by
            obtain ⟨x, hx, rfl⟩ := List.mem_map.1 hq
            have : x.row < r := by have := h5 x hx; omega
            simp [pos, this]]
          simp) (by
        intro k q hk
        simp only [Buf.put_data]
        by_cases ek : k = A.length
        · subst ek
          rw [List.getElem?_append_right (Nat.le_refl _), Nat.sub_self] at hk
          simp at hk; subst hk
          simp
        · have hlt : k < A.length := by
            have := (List.getElem?_eq_some_iff.1 hk).1
            simp at this; omega
          rw [List.getElem?_append_left hlt] at hk
          rw [if_neg ek, if_neg ek]
          exact h8 k q hk)
    rw [List.length_append, List.length_singleton] at hres
    exact hres

theorem entryLe_trans (a b c : Entry VT) : entryLe a b = true → entryLe b c = true → entryLe a c = true := by
  simp only [entryLe, Bool.or_eq_true, Bool.and_eq_true, decide_eq_true_eq]; omega

theorem entryLe_total (a b : Entry VT) : (entryLe a b || entryLe b a) = true := by
  simp only [entryLe, Bool.or_eq_true, Bool.and_eq_true, decide_eq_true_eq]; omega

/-- Strictly sorted: different positions. -/
theorem sorted_strict {E : List (Entry VT)} (hn : (E.map pos).Nodup) :
    (E.mergeSort entryLe).Pairwise fun a b => a.row < b.row ∨ a.row = b.row ∧ a.col < b.col := by
  have h1 := List.pairwise_mergeSort entryLe_trans entryLe_total E
  have h2 : ((E.mergeSort entryLe).map pos).Nodup := ((List.mergeSort_perm E entryLe).map pos).nodup_iff.2 hn
  have h3 : (E.mergeSort entryLe).Pairwise fun a b => pos a ≠ pos b := List.pairwise_map.1 h2
  refine (h1.and h3).imp fun {a b} h => ?_
  obtain ⟨h, hne⟩ := h
  simp only [entryLe, Bool.or_eq_true, Bool.and_eq_true, decide_eq_true_eq] at h
  have : ¬ (a.row = b.row ∧ a.col = b.col) := fun hh => hne (by simp [pos, hh.1, hh.2])
  omega

theorem collect {E : List (Entry VT)} : ∀ q, E.foldlM (fun (q : List (Entry VT)) e => (.ok (q ++ [e]) : Res (List (Entry VT)))) q = .ok (q ++ E) := by
  induction E with
  | nil => intro q; simp; rfl
  | cons e E ih =>
    intro q
    rw [List.foldlM_cons, Res.ok_bind, ih]
    simp

theorem csr_of_opened {N : Num VT} {field : Field} {sym : Sym} {rows cols : Nat} {items : List (Item VT)} {text : List Char} (hp : Proper sym rows cols items)
    (h : ∃ m, MM.open (some text) = .ok m ∧ Opened N field sym rows cols items m) (junk : Entry VT) (mem : Nat → VT) (memI : Nat → Nat) :
    Res.Ok (readCsr N (some text) junk mem memI) (CsrOf N sym rows cols items) := by
  obtain ⟨m, hm, ho⟩ := h
  obtain ⟨it, hit, hy⟩ := ho.first junk
  unfold readCsr
  rw [hm, Res.ok_bind]
  simp only [hit, Res.ok_bind, forEach_yields hy _ _ ho.fuel, ho.hrows, ho.hcols, collect, List.nil_append]
  rw [Buf.write_eq (by simp), Res.ok_bind]
  have hnd : ((expandAll N sym items).map pos).Nodup := expandAll_nodup hp
  have hperm : ((expandAll N sym items).mergeSort entryLe).Perm (expandAll N sym items) := List.mergeSort_perm _ _
  have hstrict := sorted_strict hnd
  have hmem : ∀ e, e ∈ (expandAll N sym items).mergeSort entryLe ↔ e ∈ expandAll N sym items := fun e => hperm.mem_iff
  have hlenS : ((expandAll N sym items).mergeSort entryLe).length = (expandAll N sym items).length := hperm.length_eq
  generalize (expandAll N sym items).mergeSort entryLe = S at hstrict hmem hlenS
  have hrow : RowSorted (S.map pos) := List.pairwise_map.2 (hstrict.imp fun {a b} h => by simp only [pos]; omega)
  have hin : ∀ e ∈ S, e.row < rows := fun e he => (hp.gives_inside (mem_expandAll ((hmem e).1 he))).1
  refine (place_ok (rows := rows) (nnz := (expandAll N sym items).length) S [] _ 0 hrow hin (by simpa using hlenS) rfl rfl rfl (by omega) (by simp) (by simp)
    (fun r hr => by rw [show r = 0 by omega]; simp [below]) (by simp)).bind ?_
  rintro ⟨m', cur, rowIdx⟩ ⟨g1, g2, g3, g4, g5, g6, g7, g8, g9, g10⟩
  simp only [List.nil_append] at g1 g2 g3 g4 g5 g6 g7 g8 g9 g10 ⊢
  refine (fillRows_ok (by omega)).bind fun offs ⟨f1, f2⟩ => Res.ok_iff.2 ?_
  have hoffs : ∀ r, r ≤ rows → offs.data r = below (S.map pos) r := fun r hr => by
    rw [f2 r]
    by_cases h : r ≤ rowIdx
    · rw [if_neg (by omega)]; exact g9 r h
    · rw [if_pos (by omega), g6]
      unfold below
      rw [List.filter_eq_self.2 fun p hp' => by
        obtain ⟨e, he, rfl⟩ := List.mem_map.1 hp'
        have : e.row < r := by have := g8 e he; omega
        simp [pos, this]]
      simp [hlenS]
  have hall : below (S.map pos) rows = (expandAll N sym items).length := by
    rw [below_all fun p hp' => ?_]
    · simp [hlenS]
    · obtain ⟨e, he, rfl⟩ := List.mem_map.1 hp'
      exact hin e he
  refine ⟨g1, g2, by simp only; omega, by simp only; rw [hoffs 0 (by omega), below_zero], by simp only; rw [hoffs rows (Nat.le_refl _), hall, g4], by simp only; omega,
    fun r hr => ?_, fun r hr => ?_⟩
  · simp only
    rw [hoffs r (by omega), hoffs (r + 1) (by omega), below_succ]
    omega
  · simp only [Csr.row]
    rw [hoffs r (by omega), hoffs (r + 1) (by omega)]
    have hle : below (S.map pos) (r + 1) ≤ S.length := by
      unfold below
      have := List.length_filter_le (fun p : Nat × Nat => decide (p.1 < r + 1)) (S.map pos)
      simpa using this
    have hget : ∀ k, k < below (S.map pos) (r + 1) - below (S.map pos) r → ∃ e, S[below (S.map pos) r + k]? = some e ∧ e.row = r ∧
        m'.idxs.data (below (S.map pos) r + k) = e.col ∧ m'.vals.data (below (S.map pos) r + k) = e.val := fun k hk => by
      have hlt : below (S.map pos) r + k < S.length := by omega
      refine ⟨S[below (S.map pos) r + k], List.getElem?_eq_getElem hlt, ?_, g10 _ _ (List.getElem?_eq_getElem hlt)⟩
      have hp' : (S.map pos)[below (S.map pos) r + k]? = some (pos S[below (S.map pos) r + k]) := by
        rw [List.getElem?_map, List.getElem?_eq_getElem hlt]; rfl
      have i1 := sorted_index hrow hp' r
      have i2 := sorted_index hrow hp' (r + 1)
      simp only [pos] at i1 i2
      omega
    constructor
    · rw [List.pairwise_map]
      refine List.pairwise_lt_range.imp_of_mem fun {a b} ha hb hab => ?_
      obtain ⟨x, hx1, hx2, hx3, _⟩ := hget a (List.mem_range.1 ha)
      obtain ⟨y, hy1, hy2, hy3, _⟩ := hget b (List.mem_range.1 hb)
      simp only
      rw [hx3, hy3]
      obtain ⟨l1, e1⟩ := List.getElem?_eq_some_iff.1 hx1
      obtain ⟨l2, e2⟩ := List.getElem?_eq_some_iff.1 hy1
      have := List.pairwise_iff_getElem.1 hstrict _ _ l1 l2 (by omega)
      rw [e1, e2] at this
      omega
    · intro c v
      rw [List.mem_map]
      constructor
      · rintro ⟨k, hk, hkv⟩
        obtain ⟨e, he1, rfl, he3, he4⟩ := hget k (List.mem_range.1 hk)
        injection hkv with h1 h2
        rw [← h1, ← h2, he3, he4]
        exact mem_expandAll ((hmem e).1 (List.mem_of_getElem? he1))
      · intro hg
        obtain ⟨k, hk⟩ := List.mem_iff_getElem?.1 ((hmem _).2 (gives_expandAll hg))
        have hk' : (S.map pos)[k]? = some (r, c) := by rw [List.getElem?_map, hk]; rfl
        have i1 := sorted_index hrow hk' r
        have i2 := sorted_index hrow hk' (r + 1)
        simp only at i1 i2
        refine ⟨k - below (S.map pos) r, List.mem_range.2 (by omega), ?_⟩
        rw [show below (S.map pos) r + (k - below (S.map pos) r) = k by omega]
        have := g10 k _ hk
        rw [this.1, this.2]

/-- C265: reading a sparse matrix from a file in either format. -/
theorem C265_sparse {N : Num VT} {field : Field} {sym : Sym} {rows cols : Nat} {items : List (Item VT)} {text : List Char}
    (h : CoordFile N field sym rows cols items text ∨ ArrayFile N field sym rows cols items text) (junk : Entry VT) (mem : Nat → VT) (memI : Nat → Nat) :
    Res.Ok (readCsr N (some text) junk mem memI) (CsrOf N sym rows cols items) := by
  rcases h with h | h
  · exact csr_of_opened h.proper h.opened junk mem memI
  · exact csr_of_opened h.proper h.opened junk mem memI

/-! ### Frames -/

theorem fold_frame {Cell : Type} {rows cols : Nat} (cell : VT → Cell) : ∀ (E : List (Entry VT)), (∀ e ∈ E, e.row < rows ∧ e.col < cols) → ∀ b : Nat → Buf Cell,
    (∀ j, j < cols → (b j).size = rows) →
    Res.Ok (E.foldlM (fun (b : Nat → Buf Cell) e => do
      if cols ≤ e.col then .error (.ub "out-of-bounds read")
      else
        let c ← (b e.col).write e.row (cell e.val)
        .ok (fun j => if j = e.col then c else b j)) b) fun b' => (∀ j, j < cols → (b' j).size = rows) ∧
      ∀ i j, i < rows → j < cols → (∃ e ∈ E, e.row = i ∧ e.col = j ∧ (b' j).data i = cell e.val) ∨
        ((∀ e ∈ E, ¬ (e.row = i ∧ e.col = j)) ∧ (b' j).data i = (b j).data i)
  | [], _, b, hb => ⟨b, rfl, hb, fun i j _ _ => .inr ⟨by simp, rfl⟩⟩
  | e :: E, hE, b, hb => by
    have he := hE e (by simp)
    rw [List.foldlM_cons]
    rw [if_neg (by omega), Buf.write_eq (by rw [hb _ he.2]; exact he.1), Res.ok_bind, Res.ok_bind]
    refine (fold_frame cell E (fun x hx => hE x (by simp [hx])) _ ?_).mono fun b' ⟨h1, h2⟩ => ⟨h1, fun i j hi hj => ?_⟩
    · intro j hj
      split
      · rename_i h
        subst h
        exact hb _ hj
      · exact hb j hj
    · rcases h2 i j hi hj with ⟨x, hx, h3⟩ | ⟨h3, h4⟩
      · exact .inl ⟨x, by simp [hx], h3⟩
      · by_cases hij : e.row = i ∧ e.col = j
        · left
          refine ⟨e, by simp, hij.1, hij.2, ?_⟩
          rw [h4, if_pos hij.2.symm, Buf.put_data, if_pos hij.1.symm]
        · right
          refine ⟨fun x hx => ?_, ?_⟩
          · rcases List.mem_cons.1 hx with rfl | hx
            · exact hij
            · exact h3 x hx
          · rw [h4]
            split
            · rename_i h
              subst h
              rw [Buf.put_data, if_neg fun h => hij ⟨h.symm, rfl⟩]
            · rfl

theorem frame_of_opened {Cell : Type} {N : Num VT} {field : Field} {sym : Sym} {rows cols : Nat} {items : List (Item VT)} {text : List Char}
    (hp : Proper sym rows cols items) (h : ∃ m, MM.open (some text) = .ok m ∧ Opened N field sym rows cols items m) (cell : Bool → VT → Cell) (junk : Entry VT)
    (zeroC : Cell) (mem : Nat → Nat → Cell) :
    Res.Ok (readFrame N cell (some text) junk zeroC mem) (FrameOf N (cell (decide (field = .integer))) zeroC sym rows cols items) := by
  obtain ⟨m, hm, ho⟩ := h
  obtain ⟨it, hit, hy⟩ := ho.first junk
  unfold readFrame
  rw [hm, Res.ok_bind]
  simp only [hit, Res.ok_bind, forEach_yields hy _ _ ho.fuel, ho.hrows, ho.hcols, ho.hfield]
  refine (fold_frame (cell (decide (field = .integer))) _ (fun e he => hp.gives_inside (mem_expandAll he)) _ (fun _ _ => rfl)).bind
    fun b ⟨h1, h2⟩ => Res.ok_iff.2 ⟨rfl, rfl, h1, fun i j hi hj => ⟨fun v hv => ?_, fun hn => ?_⟩⟩
  · rcases h2 i j hi hj with ⟨e, he, rfl, rfl, h3⟩ | ⟨h3, _⟩
    · rw [h3, hp.functional (mem_expandAll he) hv]
    · exact absurd ⟨rfl, rfl⟩ (h3 _ (gives_expandAll hv))
  · rcases h2 i j hi hj with ⟨e, he, rfl, rfl, h3⟩ | ⟨_, h3⟩
    · exact absurd ⟨_, mem_expandAll he⟩ hn
    · rw [h3]
      simp only
      rw [if_pos]
      exact fun hf => hn (ho.full hf i j hi hj)

/-- C266: reading a frame from a file in either format; its columns are 64-bit integers if the file says `integer`, doubles otherwise. -/
theorem C266_frame {Cell : Type} {N : Num VT} {field : Field} {sym : Sym} {rows cols : Nat} {items : List (Item VT)} {text : List Char}
    (h : CoordFile N field sym rows cols items text ∨ ArrayFile N field sym rows cols items text) (cell : Bool → VT → Cell) (junk : Entry VT)
    (zeroC : Cell) (mem : Nat → Nat → Cell) :
    Res.Ok (readFrame N cell (some text) junk zeroC mem) (FrameOf N (cell (decide (field = .integer))) zeroC sym rows cols items) := by
  rcases h with h | h
  · exact frame_of_opened h.proper h.opened cell junk zeroC mem
  · exact frame_of_opened h.proper h.opened cell junk zeroC mem

end Verif.Mtx

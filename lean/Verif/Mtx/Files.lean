/-
  Well-formed files: header and entries together.
-/
import Verif.Mtx.Entries
import Mathlib.Data.Finset.Prod
import Mathlib.Data.List.Nodup

namespace Verif.Mtx
open Verif Verif.Io
variable {VT : Type}

/-! ### Specification -/

/-- The entries are those of a `rows`×`cols` matrix: positions exist and differ; symmetric and skew-symmetric matrices are square and given by
    their lower triangle, skew-symmetric ones without the diagonal. -/
structure Proper (sym : Sym) (rows cols : Nat) (items : List (Item VT)) : Prop where
  inside : ∀ e ∈ items, e.row < rows ∧ e.col < cols
  distinct : (items.map fun e => (e.row, e.col)).Nodup
  square : sym ≠ .general → rows = cols
  lower : sym = .symmetric → ∀ e ∈ items, e.col ≤ e.row
  strict : sym = .skew → ∀ e ∈ items, e.col < e.row
  real : sym ≠ .hermitian

/-- A file in coordinate format. -/
structure CoordFile (N : Num VT) (field : Field) (sym : Sym) (rows cols : Nat) (items : List (Item VT)) (text : List Char) : Prop where
  fields : field = .real ∨ field = .integer ∨ field = .pattern
  content : ∃ b comments, Banner b "coordinate" field.word sym.word ∧ (∀ l ∈ comments, Comment l) ∧
    text = fileText b comments (digits rows ++ ' ' :: (digits cols ++ ' ' :: digits items.length)) (coordBody (decide (field = .pattern)) items)
  values : ∀ e ∈ items, if field = .pattern then e.val = N.one else Reads N e.text e.val
  proper : Proper sym rows cols items
  small : rows < 2 ^ 31 ∧ cols < 2 ^ 31

/-- A file in array format. -/
structure ArrayFile (N : Num VT) (field : Field) (sym : Sym) (rows cols : Nat) (items : List (Item VT)) (text : List Char) : Prop where
  fields : field = .real ∨ field = .integer
  content : ∃ b comments, Banner b "array" field.word sym.word ∧ (∀ l ∈ comments, Comment l) ∧
    text = fileText b comments (digits rows ++ ' ' :: digits cols) (arrayBody items)
  values : ∀ e ∈ items, Reads N e.text e.val
  positions : items.map (fun e => (e.row, e.col)) = arrayPos sym rows cols
  square : sym ≠ .general → rows = cols
  real : sym ≠ .hermitian
  small : rows < 2 ^ 63 ∧ cols < 2 ^ 63 ∧ rows * cols < 2 ^ 64

/-! ### Entries of proper files -/

theorem distinct_eq {items : List (Item VT)} (h : (items.map fun e => (e.row, e.col)).Nodup) {e e' : Item VT} (he : e ∈ items) (he' : e' ∈ items)
    (hr : e.row = e'.row) (hc : e.col = e'.col) : e = e' :=
  List.inj_on_of_nodup_map h he he' (by simp [hr, hc])

/-- Positions differ. -/
theorem arrayPos_nodup (sym : Sym) (rows cols : Nat) : (arrayPos sym rows cols).Nodup := by
  unfold arrayPos
  refine List.nodup_flatMap.2 ⟨fun j _ => ?_, ?_⟩
  · refine List.Nodup.map (fun a b h => by simpa using h) List.nodup_range'
  · refine (List.nodup_range (n := cols)).imp fun {a b} hab => ?_
    intro x hx hy
    obtain ⟨i, _, rfl⟩ := List.mem_map.1 hx
    obtain ⟨k, _, h⟩ := List.mem_map.1 hy
    injection h with _ h
    exact hab h.symm

theorem ArrayFile.proper {N : Num VT} {field : Field} {sym : Sym} {rows cols : Nat} {items : List (Item VT)} {text : List Char}
    (h : ArrayFile N field sym rows cols items text) : Proper sym rows cols items := by
  have hm : ∀ e ∈ items, (e.row, e.col) ∈ arrayPos sym rows cols := fun e he => by
    rw [← h.positions]
    exact List.mem_map_of_mem he
  refine ⟨fun e he => ?_, by rw [h.positions]; exact arrayPos_nodup _ _ _, h.square, fun hs e he => ?_, fun hs e he => ?_, h.real⟩
  · have := mem_arrayPos.1 (hm e he)
    omega
  · subst hs
    exact (mem_arrayPos.1 (hm e he)).2.2
  · subst hs
    exact (mem_arrayPos.1 (hm e he)).2.2

theorem Proper.tail {sym : Sym} {rows cols : Nat} {e : Item VT} {items : List (Item VT)} (h : Proper sym rows cols (e :: items)) : Proper sym rows cols items :=
  ⟨fun x hx => h.inside x (by simp [hx]), (List.nodup_cons.1 h.distinct).2, h.square, fun hs x hx => h.lower hs x (by simp [hx]),
    fun hs x hx => h.strict hs x (by simp [hx]), h.real⟩

theorem Proper.gives_inside {N : Num VT} {sym : Sym} {rows cols : Nat} {items : List (Item VT)} (h : Proper sym rows cols items) {i j : Nat} {v : VT}
    (hg : Gives N sym items i j v) : i < rows ∧ j < cols := by
  rcases hg with ⟨e, he, rfl, rfl, rfl⟩ | ⟨hs, e, he, rfl, rfl, rfl⟩ | ⟨hs, e, he, rfl, rfl, rfl⟩
  · exact h.inside e he
  · have := h.inside e he
    have := h.square (by rw [hs]; simp)
    omega
  · have := h.inside e he
    have := h.square (by rw [hs]; simp)
    omega

/-- No two values for the same position. -/
theorem Proper.functional {N : Num VT} {sym : Sym} {rows cols : Nat} {items : List (Item VT)} (h : Proper sym rows cols items) {i j : Nat} {v w : VT}
    (hv : Gives N sym items i j v) (hw : Gives N sym items i j w) : v = w := by
  rcases hv with ⟨e, he, r1, c1, rfl⟩ | ⟨hs, e, he, r1, c1, rfl⟩ | ⟨hs, e, he, r1, c1, rfl⟩ <;>
    rcases hw with ⟨e', he', r2, c2, rfl⟩ | ⟨hs', e', he', r2, c2, rfl⟩ | ⟨hs', e', he', r2, c2, rfl⟩
  · rw [distinct_eq h.distinct he he' (by omega) (by omega)]
  · have := h.lower hs' e he
    have := h.lower hs' e' he'
    rw [distinct_eq h.distinct he he' (by omega) (by omega)]
  · have := h.strict hs' e he
    have := h.strict hs' e' he'
    omega
  · have := h.lower hs e he
    have := h.lower hs e' he'
    rw [distinct_eq h.distinct he he' (by omega) (by omega)]
  · rw [distinct_eq h.distinct he he' (by omega) (by omega)]
  · rw [hs] at hs'
    cases hs'
  · have := h.strict hs e he
    have := h.strict hs e' he'
    omega
  · rw [hs] at hs'
    cases hs'
  · rw [distinct_eq h.distinct he he' (by omega) (by omega)]

/-- The iterator yields each position at most once. -/
theorem expandAll_nodup {N : Num VT} {sym : Sym} {rows cols : Nat} : ∀ {items : List (Item VT)}, Proper sym rows cols items →
    ((expandAll N sym items).map fun x => (x.row, x.col)).Nodup
  | [], _ => List.nodup_nil
  | e :: items, h => by
    have ih := expandAll_nodup (N := N) h.tail
    have hd := (List.nodup_cons.1 h.distinct).1
    have hne : ∀ e' ∈ items, ¬ (e'.row = e.row ∧ e'.col = e.col) := fun e' he' hh => hd (by
      show (e.row, e.col) ∈ _
      rw [← hh.1, ← hh.2]
      exact List.mem_map_of_mem (f := fun e => (e.row, e.col)) he')
    have hcons : expandAll N sym (e :: items) = expand N sym e.row e.col e.val ++ expandAll N sym items := rfl
    rw [hcons, List.map_append]
    refine List.nodup_append.2 ⟨?_, ih, ?_⟩
    · unfold expand
      split
      · rename_i hs
        have : e.row ≠ e.col := by
          rcases hs with hs | hs
          · exact hs.2
          · have := h.strict hs e (by simp)
            omega
        simp [this]
      · simp
    · rintro p hp q hq rfl
      obtain ⟨x, hx, rfl⟩ := List.mem_map.1 hp
      obtain ⟨y, hy, hyx⟩ := List.mem_map.1 hq
      injection hyx with y1 y2
      have gy := mem_expandAll hy
      have gx : Gives N sym [e] x.row x.col x.val := mem_expandAll (by simpa [expandAll] using hx)
      rcases gx with ⟨e1, he1, r1, c1, _⟩ | ⟨hs, e1, he1, r1, c1, _⟩ | ⟨hs, e1, he1, r1, c1, _⟩ <;> rw [List.mem_singleton] at he1 <;> subst he1 <;>
        rcases gy with ⟨e', he', r2, c2, _⟩ | ⟨hs', e', he', r2, c2, _⟩ | ⟨hs', e', he', r2, c2, _⟩
      · exact hne e' he' ⟨by omega, by omega⟩
      · have := h.lower hs' e1 (by simp)
        have := h.lower hs' e' (by simp [he'])
        exact hne e' he' ⟨by omega, by omega⟩
      · have := h.strict hs' e1 (by simp)
        have := h.strict hs' e' (by simp [he'])
        omega
      · have := h.lower hs e1 (by simp)
        have := h.lower hs e' (by simp [he'])
        exact hne e' he' ⟨by omega, by omega⟩
      · exact hne e' he' ⟨by omega, by omega⟩
      · rw [hs] at hs'
        cases hs'
      · have := h.strict hs e1 (by simp)
        have := h.strict hs e' (by simp [he'])
        omega
      · rw [hs] at hs'
        cases hs'
      · exact hne e' he' ⟨by omega, by omega⟩

theorem card_le {P : List (Nat × Nat)} (hn : P.Nodup) {rows cols : Nat} (hin : ∀ p ∈ P, p.1 < rows ∧ p.2 < cols) : P.length ≤ rows * cols := by
  have hsub : P.toFinset ⊆ Finset.range rows ×ˢ Finset.range cols := fun p hp => by
    have := hin p (List.mem_toFinset.1 hp)
    simp [this.1, this.2]
  have := Finset.card_le_card hsub
  rwa [List.toFinset_card_of_nodup hn, Finset.card_product, Finset.card_range, Finset.card_range] at this

/-- As many different positions as cells are all cells. -/
theorem covers {P : List (Nat × Nat)} (hn : P.Nodup) {rows cols : Nat} (hin : ∀ p ∈ P, p.1 < rows ∧ p.2 < cols) (hlen : P.length = rows * cols) {i j : Nat}
    (hi : i < rows) (hj : j < cols) : (i, j) ∈ P := by
  have hsub : P.toFinset ⊆ Finset.range rows ×ˢ Finset.range cols := fun p hp => by
    have := hin p (List.mem_toFinset.1 hp)
    simp [this.1, this.2]
  have := Finset.eq_of_subset_of_card_le hsub (by
    rw [List.toFinset_card_of_nodup hn, Finset.card_product, Finset.card_range, Finset.card_range, hlen])
  rw [← List.mem_toFinset, this]
  simp [hi, hj]

theorem expandAll_skew (N : Num VT) (items : List (Item VT)) : (expandAll N .skew items).length = 2 * items.length := by
  induction items with
  | nil => rfl
  | cons e items ih =>
    have : expandAll N .skew (e :: items) = expand N .skew e.row e.col e.val ++ expandAll N .skew items := rfl
    rw [this, List.length_append, ih]
    simp [expand]
    omega

theorem expandAll_length (N : Num VT) (sym : Sym) (items : List (Item VT)) : (expandAll N sym items).length ≤ 2 * items.length := by
  induction items with
  | nil => simp [expandAll]
  | cons e items ih =>
    have : expandAll N sym (e :: items) = expand N sym e.row e.col e.val ++ expandAll N sym items := rfl
    rw [this, List.length_append]
    have : (expand N sym e.row e.col e.val).length ≤ 2 := by
      unfold expand
      split <;> simp
    simp
    omega

theorem coordBody_length (p : Bool) (items : List (Item VT)) : items.length ≤ (coordBody p items).length := by
  induction items with
  | nil => simp
  | cons e items ih =>
    have : coordBody p (e :: items) = digits (e.row + 1) ++ ' ' :: (digits (e.col + 1) ++ ((if p then [] else ' ' :: e.text) ++ ['\n'])) ++ coordBody p items := rfl
    rw [this]
    simp
    omega

theorem arrayBody_length (items : List (Item VT)) : items.length ≤ (arrayBody items).length := by
  induction items with
  | nil => simp
  | cons e items ih =>
    have : arrayBody (e :: items) = e.text ++ ['\n'] ++ arrayBody items := rfl
    rw [this]
    simp
    omega

/-- What the rest of the program needs to know about a file. -/
structure Opened (N : Num VT) (field : Field) (sym : Sym) (rows cols : Nat) (items : List (Item VT)) (m : MM) : Prop where
  hrows : m.rows = rows
  hcols : m.cols = cols
  hfield : m.tc.field = field
  first : ∀ junk, ∃ it, begin N m junk = .ok it ∧ Yields N m it (expandAll N sym items)
  fuel : (expandAll N sym items).length < rounds m
  full : m.nnz = cols * rows % 2 ^ 64 → ∀ i j, i < rows → j < cols → ∃ v, Gives N sym items i j v

theorem CoordFile.opened {N : Num VT} {field : Field} {sym : Sym} {rows cols : Nat} {items : List (Item VT)} {text : List Char}
    (h : CoordFile N field sym rows cols items text) : ∃ m, MM.open (some text) = .ok m ∧ Opened N field sym rows cols items m := by
  obtain ⟨b, comments, hb, hc, rfl⟩ := h.content
  have hp := h.proper
  have hrc : rows * cols < 2 ^ 62 := by
    have h1 : rows * cols ≤ rows * 2 ^ 31 := Nat.mul_le_mul_left _ (by have := h.small; omega)
    have h2 := h.small.1
    omega
  have hlen : items.length ≤ rows * cols := by
    have := card_le (rows := rows) (cols := cols) hp.distinct fun p hp' => by
      obtain ⟨e, he, rfl⟩ := List.mem_map.1 hp'
      exact hp.inside e he
    simpa using this
  obtain ⟨l, hl⟩ := open_coord (by rcases h.fields with rfl | rfl | rfl <;> simp) hb hc (rows := rows) (cols := cols) (nnz := items.length)
    (by have := h.small; omega) (by have := h.small; omega) (by omega) (coordBody (decide (field = .pattern)) items)
  refine ⟨_, hl, rfl, rfl, rfl, fun junk => ?_, ?_, fun hn i j hi hj => ?_⟩
  · refine coord_yields (m := ⟨⟨l, coordBody (decide (field = .pattern)) items⟩, ⟨true, .coord, field, sym⟩, rows, cols,
      if sym = .skew then 2 * items.length % 2 ^ 64 else items.length⟩) rfl items (fun e he => ?_) h.values _ rfl rfl fun hpat => ?_
    · have := hp.inside e he
      have := h.small
      omega
    · simp only at hpat
      simp [hpat]
  · have := expandAll_length N sym items
    have := coordBody_length (decide (field = .pattern)) items
    unfold rounds
    simp only
    omega
  · simp only at hn
    rw [Nat.mul_comm cols rows, Nat.mod_eq_of_lt (show rows * cols < 2 ^ 64 by omega)] at hn
    have hsome : ∀ P : List (Nat × Nat), P.Nodup → (∀ p ∈ P, p.1 < rows ∧ p.2 < cols) → P.length = rows * cols → (∀ p ∈ P, ∃ v, Gives N sym items p.1 p.2 v) →
        ∃ v, Gives N sym items i j v := fun P h1 h2 h3 h4 => h4 (i, j) (covers h1 h2 h3 hi hj)
    by_cases hs : sym = .skew
    · rw [if_pos hs, Nat.mod_eq_of_lt (by omega)] at hn
      subst hs
      refine hsome _ (expandAll_nodup (N := N) hp) (fun p hp' => ?_) (by rw [List.length_map, expandAll_skew, hn]) fun p hp' => ?_
      · obtain ⟨x, hx, rfl⟩ := List.mem_map.1 hp'
        exact hp.gives_inside (mem_expandAll hx)
      · obtain ⟨x, hx, rfl⟩ := List.mem_map.1 hp'
        exact ⟨x.val, mem_expandAll hx⟩
    · rw [if_neg hs] at hn
      refine hsome _ hp.distinct (fun p hp' => ?_) (by rw [List.length_map, hn]) fun p hp' => ?_
      · obtain ⟨e, he, rfl⟩ := List.mem_map.1 hp'
        exact hp.inside e he
      · obtain ⟨e, he, rfl⟩ := List.mem_map.1 hp'
        exact ⟨e.val, .inl ⟨e, he, rfl, rfl, rfl⟩⟩

theorem ArrayFile.opened {N : Num VT} {field : Field} {sym : Sym} {rows cols : Nat} {items : List (Item VT)} {text : List Char}
    (h : ArrayFile N field sym rows cols items text) : ∃ m, MM.open (some text) = .ok m ∧ Opened N field sym rows cols items m := by
  obtain ⟨b, comments, hb, hc, rfl⟩ := h.content
  have hp := h.proper
  have hsm := h.small
  obtain ⟨l, hl⟩ := open_array (by rcases h.fields with rfl | rfl <;> simp) hb hc (rows := rows) (cols := cols) (by omega) (by omega) (arrayBody items)
  refine ⟨_, hl, rfl, rfl, rfl, fun junk => ?_, ?_, fun hn i j hi hj => ?_⟩
  · refine array_yields (m := ⟨⟨l, arrayBody items⟩, ⟨true, .array, field, sym⟩, rows, cols,
      if sym = .skew then (rows * cols % 2 ^ 64 + 2 ^ 64 - rows) % 2 ^ 64 else rows * cols % 2 ^ 64⟩) (by simp)
      (by rcases h.fields with rfl | rfl <;> simp) items (fun e he => ?_) h.values _ rfl rfl ?_
    · have := hp.inside e he
      omega
    · simp only
      rw [h.positions]
      have : (if sym = Sym.skew then 1 else 0) = firstRow sym 0 := by cases sym <;> rfl
      rw [this]
      exact arrayPos_follows hsm.1 hsm.2.1
  · have := expandAll_length N sym items
    have := arrayBody_length items
    unfold rounds
    simp only
    omega
  · have hmem : ∀ {i j}, i < rows → j < cols → firstRow sym j ≤ i → ∃ e ∈ items, e.row = i ∧ e.col = j := fun {i j} hi hj hf => by
      have : (i, j) ∈ items.map fun e => (e.row, e.col) := by
        rw [h.positions]
        exact mem_arrayPos.2 ⟨hi, hj, hf⟩
      obtain ⟨e, he, hee⟩ := List.mem_map.1 this
      injection hee with h1 h2
      exact ⟨e, he, h1, h2⟩
    cases hsym : sym with
    | general =>
      obtain ⟨e, he, h1, h2⟩ := hmem hi hj (by rw [hsym]; simp [firstRow])
      exact ⟨e.val, .inl ⟨e, he, h1, h2, rfl⟩⟩
    | hermitian => exact absurd hsym h.real
    | symmetric =>
      have hsq := h.square (by rw [hsym]; simp)
      by_cases hij : j ≤ i
      · obtain ⟨e, he, h1, h2⟩ := hmem hi hj (by rw [hsym]; exact hij)
        exact ⟨e.val, .inl ⟨e, he, h1, h2, rfl⟩⟩
      · obtain ⟨e, he, h1, h2⟩ := hmem (i := j) (j := i) (by omega) (by omega) (by rw [hsym]; simp only [firstRow]; omega)
        exact ⟨e.val, .inr (.inl ⟨rfl, e, he, h1, h2, rfl⟩)⟩
    | skew =>
      exfalso
      have hsq := h.square (by rw [hsym]; simp)
      simp only [if_pos hsym, Nat.mul_comm cols rows] at hn
      have hge : rows ≤ rows * cols := Nat.le_mul_of_pos_right _ (by omega)
      rw [Nat.mod_eq_of_lt hsm.2.2] at hn
      omega

end Verif.Mtx

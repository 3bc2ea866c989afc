/-
  The entries that the iterator of a Matrix Market file yields.
-/
import Verif.Mtx.Header

namespace Verif.Mtx
open Verif Verif.Io
variable {VT : Type}

/-! ### Specification -/

/-- An entry of a file: position (from zero), text and value. -/
structure Item (VT : Type) where
  row : Nat
  col : Nat
  text : List Char
  val : VT

/-- The lines of a file in coordinate format: indices start with one; files of patterns have no values. -/
def coordBody (pattern : Bool) (items : List (Item VT)) : List Char :=
  items.flatMap fun e => digits (e.row + 1) ++ ' ' :: (digits (e.col + 1) ++ ((if pattern then [] else ' ' :: e.text) ++ ['\n']))

/-- The lines of a file in array format: one value each. -/
def arrayBody (items : List (Item VT)) : List Char := items.flatMap fun e => e.text ++ ['\n']

/-- Value `v` at position `(i, j)` is given by the entries. -/
def Gives (N : Num VT) (sym : Sym) (items : List (Item VT)) (i j : Nat) (v : VT) : Prop :=
  (∃ e ∈ items, e.row = i ∧ e.col = j ∧ v = e.val) ∨ (sym = .symmetric ∧ ∃ e ∈ items, e.row = j ∧ e.col = i ∧ v = e.val) ∨
    (sym = .skew ∧ ∃ e ∈ items, e.row = j ∧ e.col = i ∧ v = N.neg e.val)

/-! ### Entries of a line -/

/-- The entries of one line, in the order in which they are yielded. -/
def expand (N : Num VT) (sym : Sym) (r c : Nat) (v : VT) : List (Entry VT) :=
  ⟨r, c, v⟩ :: (if (sym = .symmetric ∧ r ≠ c) ∨ sym = .skew then [⟨c, r, if sym = .skew then N.neg v else v⟩] else [])

def expandAll (N : Num VT) (sym : Sym) (items : List (Item VT)) : List (Entry VT) := items.flatMap fun e => expand N sym e.row e.col e.val

theorem mem_expandAll {N : Num VT} {sym : Sym} {items : List (Item VT)} {x : Entry VT} (h : x ∈ expandAll N sym items) : Gives N sym items x.row x.col x.val := by
  obtain ⟨e, he, hx⟩ := List.mem_flatMap.1 h
  unfold expand at hx
  rcases List.mem_cons.1 hx with rfl | hx
  · exact .inl ⟨e, he, rfl, rfl, rfl⟩
  · split at hx
    · rename_i hs
      rw [List.mem_singleton] at hx
      subst hx
      rcases hs with ⟨rfl, _⟩ | rfl
      · exact .inr (.inl ⟨rfl, e, he, rfl, rfl, rfl⟩)
      · exact .inr (.inr ⟨rfl, e, he, rfl, rfl, rfl⟩)
    · simp at hx

theorem gives_expandAll {N : Num VT} {sym : Sym} {items : List (Item VT)} {i j : Nat} {v : VT} (h : Gives N sym items i j v) :
    (⟨i, j, v⟩ : Entry VT) ∈ expandAll N sym items := by
  unfold expandAll
  rw [List.mem_flatMap]
  rcases h with ⟨e, he, rfl, rfl, rfl⟩ | ⟨rfl, e, he, rfl, rfl, rfl⟩ | ⟨rfl, e, he, rfl, rfl, rfl⟩
  · exact ⟨e, he, by simp [expand]⟩
  · refine ⟨e, he, ?_⟩
    by_cases h : e.row = e.col
    · simp [expand, h]
    · simp [expand, h]
  · exact ⟨e, he, by simp [expand]⟩

/-! ### The iterator -/

/-- The entries that are yielded from an iterator on. -/
inductive Yields (N : Num VT) (m : MM) : It VT → List (Entry VT) → Prop
  | done {it} : more it = false → Yields N m it []
  | cons {it it' E} : more it = true → step N m it = .ok it' → Yields N m it' E → Yields N m it (it.main :: E)

theorem forEach_yields {σ : Type} {N : Num VT} {m : MM} {body : σ → Entry VT → Res σ} {it : It VT} {E : List (Entry VT)} (h : Yields N m it E) :
    ∀ (fuel : Nat) (s : σ), E.length < fuel → forEach N m body fuel it s = E.foldlM body s := by
  induction h with
  | done h =>
    intro fuel s hf
    cases fuel with
    | zero => simp at hf
    | succ fuel => rw [forEach, h]; rfl
  | cons h1 h2 _ ih =>
    intro fuel s hf
    cases fuel with
    | zero => simp at hf
    | succ fuel =>
      rw [forEach, h1, if_pos rfl, List.foldlM_cons]
      congr 1
      funext s'
      rw [h2, Res.ok_bind]
      exact ih fuel s' (by simp at hf; omega)

/-- One line. -/
theorem line_yields {N : Num VT} {m : MM} {it : It VT} (hd : it.doNext = false) {f : File} (hf : it.f.getLine = some f) {r c pos : Nat} {v : VT}
    (hp : position m.tc f it.r it.c = .ok (r, c, pos)) (hv : (if m.tc.field = .pattern then it.cur else N.conv (f.line.drop pos)) = v)
    (hr : r < 2 ^ 64 - 1) (hc : c < 2 ^ 64 - 1) {E : List (Entry VT)}
    (rest : ∀ it' : It VT, it'.doNext = false → it'.f = f → it'.cur = v → (it'.r, it'.c) = (if m.rows ≤ inc r then progress m.tc.sym (inc r, c) else (inc r, c)) →
      ∃ it2, readEntry N m it' = .ok it2 ∧ Yields N m it2 E) :
    ∃ it1, readEntry N m it = .ok it1 ∧ Yields N m it1 (expand N m.tc.sym r c v ++ E) := by
  have hm : ∀ it' : It VT, it'.main.row = r ∨ it'.main.row = c → it'.main.col = r ∨ it'.main.col = c → more it' = true := by
    intro it' h1 h2
    unfold more
    have : ¬ it'.main.row = 2 ^ 64 - 1 := by omega
    simp only [this, decide_false, Bool.false_and, Bool.not_false]
  by_cases two : (m.tc.sym = .symmetric ∧ r ≠ c) ∨ m.tc.sym = .skew
  · have hre : readEntry N m it = .ok ⟨⟨r, c, v⟩, ⟨c, r, if m.tc.sym = .skew then N.neg v else v⟩, true,
        (if m.rows ≤ inc r then progress m.tc.sym (inc r, c) else (inc r, c)).1, (if m.rows ≤ inc r then progress m.tc.sym (inc r, c) else (inc r, c)).2, v, f⟩ := by
      unfold readEntry
      rw [hf]
      simp only [hp, Res.ok_bind, hv, if_pos two]
    refine ⟨_, hre, ?_⟩
    have he : expand N m.tc.sym r c v = [⟨r, c, v⟩, ⟨c, r, if m.tc.sym = .skew then N.neg v else v⟩] := by unfold expand; rw [if_pos two]
    rw [he]
    obtain ⟨it2, h2, y2⟩ := rest ⟨⟨c, r, if m.tc.sym = .skew then N.neg v else v⟩, ⟨r, c, v⟩, false,
      (if m.rows ≤ inc r then progress m.tc.sym (inc r, c) else (inc r, c)).1, (if m.rows ≤ inc r then progress m.tc.sym (inc r, c) else (inc r, c)).2, v, f⟩ rfl rfl rfl rfl
    refine .cons (hm _ (.inl rfl) (.inr rfl)) (it' := ⟨⟨c, r, if m.tc.sym = .skew then N.neg v else v⟩, ⟨r, c, v⟩, false,
      (if m.rows ≤ inc r then progress m.tc.sym (inc r, c) else (inc r, c)).1, (if m.rows ≤ inc r then progress m.tc.sym (inc r, c) else (inc r, c)).2, v, f⟩) ?_ ?_
    · simp [step]
    · refine .cons (hm _ (.inr rfl) (.inl rfl)) (it' := it2) ?_ y2
      simp only [step, Bool.false_eq_true, if_false]
      exact h2
  · have hre : readEntry N m it = .ok ⟨⟨r, c, v⟩, it.next, false,
        (if m.rows ≤ inc r then progress m.tc.sym (inc r, c) else (inc r, c)).1, (if m.rows ≤ inc r then progress m.tc.sym (inc r, c) else (inc r, c)).2, v, f⟩ := by
      unfold readEntry
      rw [hf]
      simp only [hp, Res.ok_bind, hv, if_neg two, hd]
    refine ⟨_, hre, ?_⟩
    have he : expand N m.tc.sym r c v = [⟨r, c, v⟩] := by unfold expand; rw [if_neg two]
    rw [he]
    obtain ⟨it2, h2, y2⟩ := rest ⟨⟨r, c, v⟩, it.next, false,
      (if m.rows ≤ inc r then progress m.tc.sym (inc r, c) else (inc r, c)).1, (if m.rows ≤ inc r then progress m.tc.sym (inc r, c) else (inc r, c)).2, v, f⟩ rfl rfl rfl rfl
    refine .cons (hm _ (.inl rfl) (.inr rfl)) (it' := it2) ?_ y2
    simp only [step, Bool.false_eq_true, if_false]
    exact h2

/-- End of the file. -/
theorem end_yields {N : Num VT} {m : MM} {it : It VT} (hf : it.f.rest = []) : ∃ it1, readEntry N m it = .ok it1 ∧ Yields N m it1 [] := by
  have : it.f.getLine = none := by unfold File.getLine; rw [if_pos hf]
  refine ⟨{ it with main := terminator it.cur }, ?_, .done ?_⟩
  · unfold readEntry; rw [this]
  · rfl

/-! ### Coordinate format -/

theorem stoi_digits {n : Nat} (hn : n < 2 ^ 31) {c : Char} (hc : isDigit c = false) (r : List Char) : stoi (digits n ++ c :: r) = .ok (n : Int) := by
  obtain ⟨d, r', hd, hdig⟩ := digits_head n
  have hsp := isDigit_not hdig
  have h1 : (digits n ++ c :: r).dropWhile isSpace = digits n ++ c :: r := dropWhile_none fun x hx => by
    rw [hd] at hx; simp at hx; rw [← hx]; exact hsp.1
  have hh : (digits n ++ c :: r).head? = some d := by rw [hd]; rfl
  have h2 : ¬ ((digits n ++ c :: r).head? = some '-' ∨ (digits n ++ c :: r).head? = some '+') := by
    rw [hh]; simp [hsp.2.1, hsp.2.2]
  have h3 : (digits n ++ c :: r).takeWhile isDigit = digits n := takeWhile_append_stop (digits_all n) hc r
  have h4 : strtol (digits n ++ c :: r) = n := by
    rw [digits_eq_printInt]; exact strtol_print _ (by omega) (by omega) hc r
  simp only [stoi, h1, if_neg h2, h3, h4, if_neg (digits_ne_nil n)]
  rw [if_pos (by omega)]

theorem skipDelim_space (s : List Char) : ∀ {f : File} {pos : Nat} {S : List Char}, At f pos (s ++ ' ' :: S) → (∀ x ∈ s, x ≠ ' ' ∧ x ≠ '\n') →
    skipDelim f ' ' pos = .ok (pos + s.length + 1) := by
  induction s with
  | nil =>
    intro f pos S h _
    have h : At f pos (' ' :: S) := h
    rw [skipDelim]
    split
    · rename_i h'; rw [h.char] at h'; cases h'
    · rename_i d h'; rw [h.char] at h'; cases h'; rw [if_pos rfl]; rfl
  | cons a s ih =>
    intro f pos S h hs
    have h : At f pos (a :: (s ++ ' ' :: S)) := h
    have ha := hs a (by simp)
    rw [skipDelim]
    split
    · rename_i h'; rw [h.char] at h'; cases h'
    · rename_i d h'; rw [h.char] at h'; cases h'
      rw [if_neg ha.1, ih (h.next ha.2) fun x hx => hs x (by simp [hx])]
      simp; omega

theorem skipWord_ok (s : List Char) : ∀ {f : File} {pos : Nat} {c : Char} {S : List Char}, At f pos (s ++ c :: S) → (∀ x ∈ s, x ≠ ' ' ∧ x ≠ '\n') →
    c = ' ' ∨ c = '\n' → skipWord f pos = .ok (pos + s.length) := by
  induction s with
  | nil =>
    intro f pos c S h _ hc
    have h : At f pos (c :: S) := h
    rw [skipWord]
    split
    · rename_i h'; rw [h.char] at h'; cases h'
    · rename_i d h'; rw [h.char] at h'; cases h'; rw [if_pos hc]; rfl
  | cons a s ih =>
    intro f pos c S h hs hc
    have h : At f pos (a :: (s ++ c :: S)) := h
    have ha := hs a (by simp)
    rw [skipWord]
    split
    · rename_i h'; rw [h.char] at h'; cases h'
    · rename_i d h'; rw [h.char] at h'; cases h'
      rw [if_neg (by simp [ha.1, ha.2]), ih (h.next ha.2) (fun x hx => hs x (by simp [hx])) hc]
      simp; omega

theorem digits_sp (n : Nat) : ∀ x ∈ digits n, x ≠ ' ' ∧ x ≠ '\n' := fun x hx => by
  have := digits_all n x hx
  constructor <;> (rintro rfl; revert this; decide)

/-- The position of a line `<row> <col><rest>`. -/
theorem position_coord {tc : Typecode} (htc : tc.fmt = .coord) {i j : Nat} (hi : i + 1 < 2 ^ 31) (hj : j + 1 < 2 ^ 31) {t : List Char} {c : Char} {u : List Char}
    (ht : t ++ ['\n'] = c :: u) (hc : c = ' ' ∨ c = '\n') (hn : '\n' ∉ t) (S : List Char) (r0 c0 : Nat) :
    ∃ pos, position tc ⟨digits (i + 1) ++ ' ' :: (digits (j + 1) ++ (t ++ ['\n'])), S⟩ r0 c0 = .ok (i, j, pos) ∧
      (digits (i + 1) ++ ' ' :: (digits (j + 1) ++ (t ++ ['\n']))).drop pos = t ++ ['\n'] := by
  have hdig : isDigit c = false := by rcases hc with rfl | rfl <;> decide
  have hAt : At ⟨digits (i + 1) ++ ' ' :: (digits (j + 1) ++ (t ++ ['\n'])), S⟩ 0 (digits (i + 1) ++ ' ' :: (digits (j + 1) ++ c :: (u ++ S))) := by
    refine ⟨by simp, by simp [ht], digits (i + 1) ++ ' ' :: (digits (j + 1) ++ t), by simp, ?_⟩
    simp [digits_nl, hn]
  have e1 := skipDelim_space _ hAt (digits_sp _)
  have hAt2 : At ⟨digits (i + 1) ++ ' ' :: (digits (j + 1) ++ (t ++ ['\n'])), S⟩ ((digits (i + 1)).length + 1) (digits (j + 1) ++ c :: (u ++ S)) := by
    have := (hAt.skip _ (digits_nl _) (by simp)).next (by decide)
    simpa using this
  have e2 := skipWord_ok _ hAt2 (digits_sp _) hc
  have d1 : (digits (i + 1) ++ ' ' :: (digits (j + 1) ++ (t ++ ['\n']))).drop ((digits (i + 1)).length + 1) = digits (j + 1) ++ c :: u := by
    rw [← List.drop_drop, List.drop_left, List.drop_one, List.tail_cons, ht]
  refine ⟨(digits (i + 1)).length + 1 + (digits (j + 1)).length, ?_, ?_⟩
  · unfold position
    rw [if_pos htc]
    rw [Nat.zero_add] at e1
    simp only [stoi_digits hi space_digit, Res.ok_bind, e1, d1, stoi_digits hj hdig, e2]
    have ts : ∀ n : Nat, n + 1 < 2 ^ 31 → toSize (((n + 1 : Nat) : Int) - 1) = n := fun n h => by
      unfold toSize
      omega
    rw [ts i hi, ts j hj]
  · rw [← List.drop_drop, d1, ← ht, List.drop_left]

theorem coord_yields {N : Num VT} {m : MM} (htc : m.tc.fmt = .coord) : ∀ (items : List (Item VT)), (∀ e ∈ items, e.row + 1 < 2 ^ 31 ∧ e.col + 1 < 2 ^ 31) →
    (∀ e ∈ items, if m.tc.field = .pattern then e.val = N.one else Reads N e.text e.val) →
    ∀ it : It VT, it.doNext = false → it.f.rest = coordBody (decide (m.tc.field = .pattern)) items → (m.tc.field = .pattern → it.cur = N.one) →
      ∃ it1, readEntry N m it = .ok it1 ∧ Yields N m it1 (expandAll N m.tc.sym items)
  | [], _, _, it, _, hf, _ => end_yields hf
  | e :: items, hi, hv, it, hd, hf, hcur => by
    have hie := hi e (by simp)
    have hve := hv e (by simp)
    have hnl : '\n' ∉ (if decide (m.tc.field = .pattern) = true then [] else ' ' :: e.text : List Char) := by
      by_cases hp : m.tc.field = .pattern
      · simp [hp]
      · rw [if_neg hp] at hve
        simp [hp, hve.nl]
    obtain ⟨c, u, hcu, hc⟩ : ∃ c u, (if decide (m.tc.field = .pattern) = true then [] else ' ' :: e.text : List Char) ++ ['\n'] = c :: u ∧ (c = ' ' ∨ c = '\n') := by
      by_cases hp : m.tc.field = .pattern
      · exact ⟨'\n', [], by simp [hp], .inr rfl⟩
      · exact ⟨' ', e.text ++ ['\n'], by simp [hp], .inl rfl⟩
    have hline : it.f.getLine = some ⟨digits (e.row + 1) ++ ' ' :: (digits (e.col + 1) ++
        ((if decide (m.tc.field = .pattern) = true then [] else ' ' :: e.text) ++ ['\n'])), coordBody (decide (m.tc.field = .pattern)) items⟩ := by
      have := getLine_eq (f := it.f) (l := digits (e.row + 1) ++ ' ' :: (digits (e.col + 1) ++ (if decide (m.tc.field = .pattern) = true then [] else ' ' :: e.text)))
        (S := coordBody (decide (m.tc.field = .pattern)) items) (by rw [hf]; simp [coordBody]) (by
          simp only [List.mem_append, List.mem_cons, not_or]
          exact ⟨digits_nl _, by decide, digits_nl _, hnl⟩)
      rw [this]
      simp
    obtain ⟨pos, hpos, hdrop⟩ := position_coord htc hie.1 hie.2 hcu hc hnl (coordBody (decide (m.tc.field = .pattern)) items) it.r it.c
    have hval : (if m.tc.field = .pattern then it.cur else N.conv ((digits (e.row + 1) ++ ' ' :: (digits (e.col + 1) ++
        ((if decide (m.tc.field = .pattern) = true then [] else ' ' :: e.text) ++ ['\n']))).drop pos)) = e.val := by
      by_cases hp : m.tc.field = .pattern
      · rw [if_pos hp] at hve ⊢
        rw [hcur hp, hve]
      · rw [if_neg hp] at hve ⊢
        rw [hdrop]
        simp only [hp, decide_false, Bool.false_eq_true, if_false]
        exact hve.after
    refine line_yields (E := expandAll N m.tc.sym items) hd hline hpos hval (by omega) (by omega) fun it' h1 h2 h3 _ => ?_
    refine coord_yields htc items (fun e he => hi e (by simp [he])) (fun e he => hv e (by simp [he])) it' h1 (by rw [h2]) fun hp => ?_
    rw [h3]
    rw [if_pos hp] at hve
    exact hve

/-! ### Array format -/

/-- First row of a column in array format: symmetric matrices are given by their lower triangle, skew-symmetric ones without the diagonal. -/
def firstRow : Sym → Nat → Nat
  | .symmetric, j => j
  | .skew, j => j + 1
  | _, _ => 0

/-- The positions in array format: column by column. -/
def arrayPos (sym : Sym) (rows cols : Nat) : List (Nat × Nat) :=
  (List.range cols).flatMap fun j => (List.range' (firstRow sym j) (rows - firstRow sym j)).map fun i => (i, j)

/-- Positions as the iterator counts them, from `p` on. -/
def Follows (sym : Sym) (rows : Nat) : List (Nat × Nat) → Nat × Nat → Prop
  | [], _ => True
  | q :: P, p => q = p ∧ Follows sym rows P (if rows ≤ inc p.1 then progress sym (inc p.1, p.2) else (inc p.1, p.2))

theorem array_yields {N : Num VT} {m : MM} (htc : m.tc.fmt ≠ .coord) (hpat : m.tc.field ≠ .pattern) : ∀ (items : List (Item VT)),
    (∀ e ∈ items, e.row < 2 ^ 64 - 1 ∧ e.col < 2 ^ 64 - 1) → (∀ e ∈ items, Reads N e.text e.val) → ∀ it : It VT, it.doNext = false →
    it.f.rest = arrayBody items → Follows m.tc.sym m.rows (items.map fun e => (e.row, e.col)) (it.r, it.c) →
      ∃ it1, readEntry N m it = .ok it1 ∧ Yields N m it1 (expandAll N m.tc.sym items)
  | [], _, _, it, _, hf, _ => end_yields hf
  | e :: items, hi, hv, it, hd, hf, hfo => by
    have hie := hi e (by simp)
    have hve := hv e (by simp)
    have hline := getLine_eq (f := it.f) (l := e.text) (S := arrayBody items) (by rw [hf]; simp [arrayBody]) hve.nl
    obtain ⟨hp, hfo⟩ := hfo
    injection hp with hp1 hp2
    have hpos : position m.tc ⟨e.text ++ ['\n'], arrayBody items⟩ it.r it.c = .ok (e.row, e.col, 0) := by
      unfold position
      rw [if_neg htc, hp1, hp2]
    refine line_yields (E := expandAll N m.tc.sym items) hd hline hpos (v := e.val) (by rw [if_neg hpat]; exact hve.bare) hie.1 hie.2 fun it' h1 h2 _ h4 => ?_
    refine array_yields htc hpat items (fun e he => hi e (by simp [he])) (fun e he => hv e (by simp [he])) it' h1 (by rw [h2]) ?_
    rw [h4, hp1, hp2]
    exact hfo

theorem inc_eq {n : Nat} (h : n + 1 < 2 ^ 64) : inc n = n + 1 := Nat.mod_eq_of_lt h

theorem follows_col {sym : Sym} {rows j : Nat} (hrows : rows < 2 ^ 63) (hj : j < 2 ^ 63) {Q : List (Nat × Nat)} (hQ : Follows sym rows Q (firstRow sym (j + 1), j + 1)) :
    ∀ n i, i + n = rows → 0 < n → Follows sym rows ((List.range' i n).map (fun i => (i, j)) ++ Q) (i, j)
  | 0, i, _, h => absurd h (by omega)
  | n + 1, i, h, _ => by
    rw [List.range'_succ, List.map_cons, List.cons_append]
    refine ⟨rfl, ?_⟩
    rw [inc_eq (by simp only; omega)]
    simp only
    by_cases hn : n = 0
    · subst hn
      rw [if_pos (by omega)]
      simp only [List.range'_zero, List.map_nil, List.nil_append]
      have : progress sym (i + 1, j) = (firstRow sym (j + 1), j + 1) := by
        cases sym <;> simp only [progress, firstRow, inc_eq (show j + 1 < 2 ^ 64 by omega), inc_eq (show j + 1 + 1 < 2 ^ 64 by omega)]
      rw [this]
      exact hQ
    · rw [if_neg (by omega)]
      exact follows_col hrows hj hQ n (i + 1) (by omega) (by omega)

theorem firstRow_mono {sym : Sym} {i j : Nat} (h : i ≤ j) : firstRow sym i ≤ firstRow sym j := by cases sym <;> simp [firstRow] <;> omega

theorem follows_cols {sym : Sym} {rows : Nat} (hrows : rows < 2 ^ 63) : ∀ n j, j + n < 2 ^ 63 →
    Follows sym rows ((List.range' j n).flatMap fun j => (List.range' (firstRow sym j) (rows - firstRow sym j)).map fun i => (i, j)) (firstRow sym j, j)
  | 0, _, _ => trivial
  | n + 1, j, h => by
    by_cases hlt : firstRow sym j < rows
    · rw [List.range'_succ, List.flatMap_cons]
      exact follows_col hrows (by omega) (follows_cols hrows n (j + 1) (by omega)) _ _ (by omega) (by omega)
    · have : ((List.range' j (n + 1)).flatMap fun j => (List.range' (firstRow sym j) (rows - firstRow sym j)).map fun i => (i, j)) = [] := by
        rw [List.flatMap_eq_nil_iff]
        intro k hk
        have := (List.mem_range'_1.1 hk).1
        have := firstRow_mono (sym := sym) this
        rw [show rows - firstRow sym k = 0 by omega]
        rfl
      rw [this]
      trivial

theorem arrayPos_follows {sym : Sym} {rows cols : Nat} (hrows : rows < 2 ^ 63) (hcols : cols < 2 ^ 63) :
    Follows sym rows (arrayPos sym rows cols) (firstRow sym 0, 0) := by
  unfold arrayPos
  rw [List.range_eq_range']
  exact follows_cols hrows cols 0 (by omega)

theorem mem_arrayPos {sym : Sym} {rows cols i j : Nat} : (i, j) ∈ arrayPos sym rows cols ↔ i < rows ∧ j < cols ∧ firstRow sym j ≤ i := by
  unfold arrayPos
  simp only [List.mem_flatMap, List.mem_range, List.mem_map, List.mem_range'_1, Prod.mk.injEq]
  constructor
  · rintro ⟨k, hk, x, hx, rfl, rfl⟩
    omega
  · rintro ⟨h1, h2, h3⟩
    exact ⟨j, h2, i, by omega, rfl, rfl⟩

end Verif.Mtx

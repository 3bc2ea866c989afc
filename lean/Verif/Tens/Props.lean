/-
  Access to the elements of a tensor, initialisation, dicing, conversion from and to matrices (C291-C299).
-/
import Verif.Tens.Model
import Verif.FrameBin.Props
import Mathlib.Data.List.Forall2

namespace Verif.Tens
open Verif Verif.Dense
variable {α : Type}

/-! ### Specification -/

/-- A mathematical tensor: extents and cells. -/
structure Ten (α : Type) where
  shape : List Nat
  cell : List Nat → α

/-- `idx` addresses a cell of a tensor with these extents. -/
def Valid (idx shape : List Nat) : Prop := List.Forall₂ (fun i d => i < d) idx shape

/-- The position of a cell if the first index varies fastest. -/
def place : List Nat → List Nat → Nat
  | i :: is, d :: ds => i + d * place is ds
  | _, _ => 0

/-- How the tensors of this class lie in memory: the first dimension is contiguous, with room for `skip` elements (more than the
extent only for tensors made from views of matrices); all others are packed. All cells lie in the memory block. -/
structure CT.WF (t : CT α) (skip : Nat) : Prop where
  pos : 0 ∉ t.shape
  lay : ∀ d ds, t.shape = d :: ds → d ≤ skip ∧ t.strides = 1 :: stridesFrom skip ds
  lay0 : t.shape = [] → t.strides = []
  tot : t.total = t.shape.prod
  inb : ∀ idx, Valid idx t.shape → t.base + lin idx t.strides < t.mem.size

/-- No unused room: all constructors except the one from a matrix view. -/
def CT.Packed (t : CT α) : Prop := t.WF (t.shape.headD 1)

/-- The object shows the mathematical tensor. -/
def CT.Is (t : CT α) (a : Ten α) : Prop :=
  t.shape = a.shape ∧ ∀ idx, Valid idx a.shape → t.tryGet idx = .ok (some (a.cell idx))

/-! ### Positions -/

theorem linRest_strides : ∀ (idx ds : List Nat) (s : Nat), Valid idx ds → linRest idx (stridesFrom s ds) = s * place idx ds
  | _, _, s, .nil => by simp [linRest, stridesFrom, place]
  | _, _, s, .cons (a := i) (b := d) (l₁ := is) (l₂ := ds) h hs => by
    simp only [linRest, stridesFrom, place]
    rw [linRest_strides is ds (s * d) hs, Nat.mul_add, Nat.mul_comm i s, Nat.mul_assoc]

theorem lin_wf {t : CT α} {k : Nat} (w : t.WF k) {i d : Nat} {is ds : List Nat} (hs : t.shape = d :: ds) (hv : Valid (i :: is) (d :: ds)) :
    lin (i :: is) t.strides = i + k * place is ds := by
  obtain ⟨_, e⟩ := w.lay d ds hs
  rw [e]
  simp only [lin, List.tail_cons]
  cases hv with
  | cons _ h2 => rw [linRest_strides is ds k h2]

theorem place_inj : ∀ {idx idx' ds : List Nat}, Valid idx ds → Valid idx' ds → place idx ds = place idx' ds → idx = idx'
  | _, _, _, .nil, .nil, _ => rfl
  | _, _, _, .cons (a := i) (b := d) (l₁ := is) (l₂ := ds) h hs, .cons (a := j) (l₁ := js) h' hs', e => by
    simp only [place] at e
    have h1 : i = j := by
      have := congrArg (· % d) e
      simpa [Nat.add_mul_mod_self_left, Nat.mod_eq_of_lt h, Nat.mod_eq_of_lt h'] using this
    subst h1
    have h2 : place is ds = place js ds := Nat.eq_of_mul_eq_mul_left (by omega : 0 < d) (by omega)
    rw [place_inj hs hs' h2]

theorem lin_inj {t : CT α} {k : Nat} (w : t.WF k) {idx idx' : List Nat} (h : Valid idx t.shape) (h' : Valid idx' t.shape)
    (e : lin idx t.strides = lin idx' t.strides) : idx = idx' := by
  cases hs : t.shape with
  | nil =>
    rw [hs] at h h'
    cases h; cases h'; rfl
  | cons d ds =>
    rw [hs] at h h'
    cases h with
    | cons h1 h2 =>
    cases h' with
    | cons g1 g2 =>
    rename_i i is j js
    have hk := (w.lay d ds hs).1
    rw [lin_wf w hs (.cons h1 h2), lin_wf w hs (.cons g1 g2)] at e
    exact place_inj (ds := k :: ds) (.cons (Nat.lt_of_lt_of_le h1 hk) h2) (.cons (Nat.lt_of_lt_of_le g1 hk) g2) e

theorem place_lt : ∀ {idx ds : List Nat}, Valid idx ds → place idx ds < ds.prod
  | _, _, .nil => by simp [place]
  | _, _, .cons (a := i) (b := d) (l₁ := is) (l₂ := ds) h hs => by
    have := place_lt hs
    simp only [place, List.prod_cons]
    calc i + d * place is ds < d + d * place is ds := by omega
      _ = d * (place is ds + 1) := by rw [Nat.mul_add]; omega
      _ ≤ d * ds.prod := Nat.mul_le_mul_left d this

theorem count_eq : ∀ ds : List Nat, count ds = ds.prod
  | [] => rfl
  | d :: ds => by simp [count, count_eq ds]

theorem Valid.length {idx shape : List Nat} (h : Valid idx shape) : idx.length = shape.length := List.Forall₂.length_eq h

theorem any_ge : ∀ {idx shape : List Nat}, idx.length = shape.length →
    (((List.zip idx shape).any fun q => decide (q.1 ≥ q.2)) = false ↔ Valid idx shape)
  | [], [], _ => by simp [Valid]
  | i :: is, d :: ds, h => by
    have := any_ge (idx := is) (shape := ds) (by simpa using h)
    simp only [List.zip_cons_cons, List.any_cons, Bool.or_eq_false_iff, decide_eq_false_iff_not, Valid, List.forall₂_cons]
    rw [this]
    simp [Valid]

theorem tryGet_valid {t : CT α} {k : Nat} (w : t.WF k) {idx : List Nat} (h : Valid idx t.shape) :
    t.tryGet idx = .ok (some (t.mem.data (t.base + lin idx t.strides))) := by
  unfold CT.tryGet
  rw [if_neg (by simpa using h.length)]
  by_cases hs : t.shape = []
  · rw [if_pos hs]
    have hi : idx = [] := by rw [hs] at h; cases h; rfl
    subst hi
    have := w.inb [] h
    simp only [lin, Nat.add_zero] at this ⊢
    rw [Buf.read_eq this]
    rfl
  · rw [if_neg hs, if_neg (by rw [(any_ge h.length).2 h]; simp), Buf.read_eq (w.inb idx h)]
    rfl

theorem tryGet_invalid {t : CT α} {idx : List Nat} (h : ¬ Valid idx t.shape) : t.tryGet idx = .ok none := by
  unfold CT.tryGet
  by_cases hl : idx.length = t.shape.length
  · rw [if_neg (by simpa using hl)]
    by_cases hs : t.shape = []
    · rw [hs] at h hl
      exact absurd (by rw [List.eq_nil_of_length_eq_zero hl]; exact .nil) h
    · rw [if_neg hs]
      have : ((List.zip idx t.shape).any fun q => decide (q.1 ≥ q.2)) = true := by
        by_contra hc
        exact h ((any_ge hl).1 (by simpa using hc))
      rw [if_pos this]
  · rw [if_pos hl]

theorem get_valid {t : CT α} {k : Nat} (w : t.WF k) {idx : List Nat} (h : Valid idx t.shape) :
    t.get idx = .ok (t.mem.data (t.base + lin idx t.strides)) := by
  unfold CT.get
  by_cases hs : t.shape = []
  · rw [if_pos hs]
    have hi : idx = [] := by rw [hs] at h; cases h; rfl
    subst hi
    have := w.inb [] h
    simp only [lin, Nat.add_zero] at this ⊢
    rw [Buf.read_eq this]
  · rw [if_neg hs, if_neg (by rw [h.length]; omega), ← h.length, List.take_length, Buf.read_eq (w.inb idx h)]

/-! ### Element access -/

/-- **C291.** Element access by `tryGet`, `get`, `trySet` and `set` on any tensor (also one that shares the memory of a matrix view): an index
vector of the wrong length or with an index beyond its extent is refused, and nothing is changed; otherwise `tryGet` and `get` agree, and a
written value is read back from this cell, all others keep theirs. -/
theorem C291_element_access (t : CT α) (k : Nat) (w : t.WF k) (idx : List Nat) (v : α) :
    (¬ Valid idx t.shape → t.tryGet idx = .ok none ∧ t.trySet idx v = .ok (t, false)) ∧
    (Valid idx t.shape → ∃ u, t.tryGet idx = .ok (some u) ∧ t.get idx = .ok u) ∧
    (Valid idx t.shape → t.shape ≠ [] → ∃ t', t.trySet idx v = .ok (t', true) ∧ t.set idx v = .ok t' ∧ t'.WF k ∧ t'.shape = t.shape ∧
      t'.tryGet idx = .ok (some v) ∧ ∀ idx', idx' ≠ idx → t'.tryGet idx' = t.tryGet idx') := by
  refine ⟨fun h => ⟨tryGet_invalid h, ?_⟩, fun h => ⟨_, tryGet_valid w h, get_valid w h⟩, fun h hne => ?_⟩
  · unfold CT.trySet
    by_cases hl : idx.length ≠ t.shape.length ∨ t.shape.length = 0
    · rw [if_pos hl]
    · rw [if_neg hl]
      have : ((List.zip idx t.shape).any fun q => decide (q.1 ≥ q.2)) = true := by
        by_contra hc
        exact h ((any_ge (by omega)).1 (by simpa using hc))
      rw [if_pos this]
  · have hlen := h.length
    have hpos : 0 < t.shape.length := List.length_pos_iff.2 hne
    let t' : CT α := { t with mem := t.mem.put (t.base + lin idx t.strides) v }
    have w' : t'.WF k := ⟨w.pos, w.lay, w.lay0, w.tot, fun i hi => by simpa [t'] using w.inb i hi⟩
    refine ⟨t', ?_, ?_, w', rfl, ?_, ?_⟩
    · unfold CT.trySet
      rw [if_neg (by omega), if_neg (by rw [(any_ge hlen).2 h]; simp), Buf.write_eq (w.inb idx h)]
      rfl
    · unfold CT.set
      have hi : idx ≠ [] := by rintro rfl; simp at hlen; omega
      rw [if_neg (by rintro (h1 | h1); omega; exact hi h1)]
      have : max 1 t.shape.length = idx.length := by omega
      rw [this, List.take_length, Buf.write_eq (w.inb idx h)]
      rfl
    · rw [tryGet_valid w' h]
      simp [t']
    · intro idx' hne'
      by_cases h' : Valid idx' t.shape
      · rw [tryGet_valid w' h', tryGet_valid w h']
        show Except.ok (some ((t.mem.put (t.base + lin idx t.strides) v).data (t.base + lin idx' t.strides))) = _
        rw [Buf.put_data_ne]
        intro e
        exact hne' (lin_inj w h' h (by omega))
      · rw [tryGet_invalid h', tryGet_invalid (t := t') h']

/-! ### Initialisation -/

theorem fill_ok (f : Nat → Option α) (n : Nat) (b : Buf α) (hb : n ≤ b.size) :
    Res.Ok (fill f n b) fun b' => b'.size = b.size ∧ ∀ i, i < n → ∀ v, f i = some v → b'.data i = v := by
  unfold fill
  refine forLoop_post (fun j (b' : Buf α) => b'.size = b.size ∧ ∀ i, i < j → ∀ v, f i = some v → b'.data i = v) 0 n b (by omega)
    ⟨rfl, fun i hi => by omega⟩ ?_ ?_
  · intro j b' _ hj ⟨h1, h2⟩
    cases hf : f j with
    | none =>
      refine ⟨b', rfl, h1, ?_⟩
      intro i hi v hv
      by_cases e : i = j
      · subst e; rw [hf] at hv; cases hv
      · exact h2 i (by omega) v hv
    | some u =>
      refine ⟨b'.put j u, Buf.write_eq (by omega), h1, ?_⟩
      intro i hi v hv
      by_cases e : i = j
      · subst e; rw [hf] at hv; cases hv; simp
      · rw [Buf.put_data_ne _ _ _ _ e]; exact h2 i (by omega) v hv
  · intro b' h; exact h

theorem packed_of {shape : List Nat} (h0 : 0 ∉ shape) {b : Buf α} (hb : b.size = shape.prod) :
    (⟨shape, stridesFrom 1 shape, count shape, 0, b⟩ : CT α).Packed ∧
    ∀ idx, Valid idx shape → lin idx (stridesFrom 1 shape) = place idx shape := by
  have hl : ∀ idx, Valid idx shape → lin idx (stridesFrom 1 shape) = place idx shape := by
    intro idx h
    cases h with
    | nil => rfl
    | cons h1 h2 =>
      rename_i i d is ds
      simp only [stridesFrom, lin, List.tail_cons, place]
      rw [linRest_strides is ds _ h2, Nat.one_mul]
  refine ⟨⟨h0, ?_, ?_, ?_, ?_⟩, hl⟩
  · intro d ds hs
    simp only at hs
    subst hs
    simp [stridesFrom]
  · intro hs; simp only at hs; subst hs; rfl
  · exact count_eq shape
  · intro idx h
    simp only at h ⊢
    rw [hl idx h, hb, Nat.zero_add]
    exact place_lt h

/-- **C292.** A tensor with an extent zero is refused; otherwise the new tensor has the given extents, all its cells have the
wanted initial value, with `IOTA` their position in memory, where the first index varies fastest. -/
theorem C292_create (zero mx mn : α) (ofNat : Nat → α) (junk : Nat → α) (shape : List Nat) (init : Init) :
    (0 ∈ shape → (create zero mx mn ofNat junk shape init).Throws) ∧
    (0 ∉ shape → ∃ t, create zero mx mn ofNat junk shape init = .ok t ∧ t.Packed ∧ t.shape = shape ∧
      ∀ idx, Valid idx shape →
        (init = .zero → t.tryGet idx = .ok (some zero)) ∧ (init = .max → t.tryGet idx = .ok (some mx)) ∧
        (init = .min → t.tryGet idx = .ok (some mn)) ∧ (init = .iota → t.tryGet idx = .ok (some (ofNat (place idx shape))))) := by
  unfold create
  refine ⟨fun h => ⟨_, if_pos h⟩, fun h => ?_⟩
  rw [if_neg h]
  obtain ⟨b, e, h1, h2⟩ := fill_ok (initVal zero mx mn ofNat init) (count shape) ⟨count shape, junk⟩ (Nat.le_refl _)
  rw [e]
  obtain ⟨w, hl⟩ := packed_of h (b := b) (by rw [h1]; exact count_eq shape)
  refine ⟨_, rfl, w, rfl, fun idx hv => ?_⟩
  have hp : place idx shape < count shape := by rw [count_eq]; exact place_lt hv
  have hg := tryGet_valid w (idx := idx) hv
  simp only [hl idx hv, Nat.zero_add] at hg
  refine ⟨?_, ?_, ?_, ?_⟩ <;>
  · rintro rfl
    rw [hg, h2 _ hp _ rfl]

/-! ### Dicing -/

/-- The digits of a number for the given extents. -/
def digits (s : Nat) : List Nat → Nat → List Nat
  | [], _ => []
  | d :: ds, n => n / s % d :: digits (s * d) ds n

theorem unrank_eq : ∀ (ds los : List Nat) (s n : Nat), ds.length = los.length → 0 < s → 0 ∉ ds → n < s * ds.prod →
    CT.unrank (List.zip (stridesFrom s ds) los) n = (List.zipWith (· + ·) (digits s ds n) los, n % s)
  | [], [], s, n, _, _, _, h => by
    simp only [List.prod_nil, Nat.mul_one] at h
    simp [stridesFrom, CT.unrank, digits, Nat.mod_eq_of_lt h]
  | d :: ds, lo :: los, s, n, hl, hs, h0, h => by
    simp only [List.mem_cons, not_or] at h0
    have hd : 0 < d := by omega
    have ih := unrank_eq ds los (s * d) n (by simpa using hl) (Nat.mul_pos hs hd) h0.2 (by rw [Nat.mul_assoc]; simpa using h)
    simp only [stridesFrom, List.zip_cons_cons, CT.unrank, ih, digits, List.zipWith_cons_cons]
    rw [Nat.mod_mul_right_div_self, Nat.mod_mul_right_mod]

theorem digits_place : ∀ {idx ds : List Nat} (s r : Nat), 0 < s → r < s → Valid idx ds → digits s ds (s * place idx ds + r) = idx
  | _, _, s, r, _, _, .nil => rfl
  | _, _, s, r, hs, hr, .cons (a := i) (b := d) (l₁ := is) (l₂ := ds) h hv => by
    have e : s * (i + d * place is ds) + r = s * d * place is ds + (s * i + r) := by
      rw [Nat.mul_add, Nat.mul_assoc]; omega
    have hlt : s * i + r < s * d := by
      calc s * i + r < s * i + s := by omega
        _ = s * (i + 1) := by rw [Nat.mul_add]; omega
        _ ≤ s * d := Nat.mul_le_mul_left s h
    have hd : (s * (i + d * place is ds) + r) / s = i + d * place is ds := by
      rw [Nat.mul_add_div hs, Nat.div_eq_of_lt hr, Nat.add_zero]
    simp only [place, digits]
    rw [hd, Nat.add_mul_mod_self_left, Nat.mod_eq_of_lt h, e, digits_place (s * d) (s * i + r) (by omega) hlt hv]

theorem place_digits : ∀ (ds : List Nat) (s n : Nat), 0 < s → 0 ∉ ds → n < s * ds.prod → Valid (digits s ds n) ds ∧ s * place (digits s ds n) ds + n % s = n
  | [], s, n, hs, _, h => by
    simp only [List.prod_nil, Nat.mul_one] at h
    exact ⟨.nil, by simp [digits, place, Nat.mod_eq_of_lt h]⟩
  | d :: ds, s, n, hs, h0, h => by
    simp only [List.mem_cons, not_or] at h0
    have hd : 0 < d := by omega
    obtain ⟨h1, h2⟩ := place_digits ds (s * d) n (Nat.mul_pos hs hd) h0.2 (by rw [Nat.mul_assoc]; simpa using h)
    refine ⟨.cons (Nat.mod_lt _ hd) h1, ?_⟩
    simp only [digits, place]
    have h3 : n % (s * d) = s * (n / s % d) + n % s := by
      rw [Nat.mod_mul, Nat.add_comm]
    rw [Nat.mul_add]
    rw [h3] at h2
    rw [← Nat.mul_assoc]
    omega

/-- The wanted ranges (lower bound inclusive, upper bound exclusive) are non-empty and within the extents. -/
def RangesOk (ranges : List (Nat × Nat)) (shape : List Nat) : Prop := List.Forall₂ (fun r d => r.1 < r.2 ∧ r.2 ≤ d) ranges shape

theorem diceRanges_iff : ∀ (rs : List (Nat × Nat)) (ds : List Nat), (∀ r ∈ rs, r.2 < 2 ^ 64) → (∀ d ∈ ds, d < 2 ^ 64) →
    (RangesOk rs ds → CT.diceRanges rs ds = some (rs.map fun r => (r.1, r.2 - 1))) ∧ (¬ RangesOk rs ds → CT.diceRanges rs ds = none)
  | [], [], _, _ => ⟨fun _ => rfl, fun h => absurd .nil h⟩
  | [], _ :: _, _, _ => ⟨fun h => (by cases h), fun _ => rfl⟩
  | _ :: _, [], _, _ => ⟨fun h => (by cases h), fun _ => rfl⟩
  | (lo, hi) :: rs, d :: ds, h1, h2 => by
    have hhi : hi < 2 ^ 64 := h1 (lo, hi) (by simp)
    have hd : d < 2 ^ 64 := h2 d (by simp)
    obtain ⟨i1, i2⟩ := diceRanges_iff rs ds (fun r hr => h1 r (by simp [hr])) fun d hd => h2 d (by simp [hd])
    have hw : (hi + (2 ^ 64 - 1)) % 2 ^ 64 = if hi = 0 then 2 ^ 64 - 1 else hi - 1 := by
      split
      · subst hi; rfl
      · rw [show hi + (2 ^ 64 - 1) = (hi - 1) + 2 ^ 64 by omega, Nat.add_mod_right, Nat.mod_eq_of_lt (by omega)]
    have key : (lo ≥ d ∨ (hi + (2 ^ 64 - 1)) % 2 ^ 64 ≥ d ∨ lo > (hi + (2 ^ 64 - 1)) % 2 ^ 64) ↔ ¬ (lo < hi ∧ hi ≤ d) := by
      rw [hw]
      split <;> omega
    unfold CT.diceRanges
    simp only [RangesOk, List.forall₂_cons]
    by_cases hok : lo < hi ∧ hi ≤ d
    · rw [if_neg (by rw [key]; simpa using hok)]
      have e : (hi + (2 ^ 64 - 1)) % 2 ^ 64 = hi - 1 := by rw [hw, if_neg (by omega)]
      constructor
      · rintro ⟨_, h⟩
        rw [i1 h, e]
        rfl
      · intro h
        rw [i2 fun h' => h ⟨hok, h'⟩]
        rfl
    · rw [if_pos (key.2 hok)]
      exact ⟨fun h => absurd h.1 hok, fun _ => rfl⟩

theorem valid_shift : ∀ {ranges : List (Nat × Nat)} {shape idx : List Nat}, RangesOk ranges shape → Valid idx (ranges.map fun r => r.2 - r.1) →
    Valid (List.zipWith (· + ·) idx (ranges.map Prod.fst)) shape
  | _, _, _, .nil, .nil => .nil
  | _, _, _, .cons (a := r) h hr, .cons (a := i) h' hv => by
    simp only [List.map_cons, List.zipWith_cons_cons]
    refine .cons ?_ (valid_shift hr hv)
    have h' : i < r.2 - r.1 := h'
    omega

/-- **C293.** `tryDice` refuses ranges of the wrong number, empty or reversed ranges and those beyond the extents. Otherwise it creates a tensor
of the sizes of the ranges, whose cells are those of the source at the index plus the lower bounds — also if the source is a view. -/
theorem C293_dice (t : CT α) (k : Nat) (w : t.WF k) (a : Ten α) (ht : t.Is a) (junk : Nat → α) (ranges : List (Nat × Nat))
    (hr : ∀ r ∈ ranges, r.2 < 2 ^ 64) (hd : ∀ d ∈ t.shape, d < 2 ^ 64) :
    (¬ RangesOk ranges t.shape → t.tryDice junk ranges = .ok none) ∧
    (RangesOk ranges t.shape → ∃ t', t.tryDice junk ranges = .ok (some t') ∧ t'.Packed ∧
      t'.Is ⟨ranges.map fun r => r.2 - r.1, fun idx => a.cell (List.zipWith (· + ·) idx (ranges.map Prod.fst))⟩) := by
  obtain ⟨h1, h2⟩ := diceRanges_iff ranges t.shape hr hd
  constructor
  · intro h
    unfold CT.tryDice
    by_cases hl : ranges.length = t.shape.length
    · rw [if_neg (by simpa using hl), h2 h]
    · rw [if_pos hl]
  · intro h
    have hl : ranges.length = t.shape.length := List.Forall₂.length_eq h
    have hshape : (ranges.map fun r => (r.1, r.2 - 1)).map (fun q : Nat × Nat => q.2 - q.1 + 1) = ranges.map fun r => r.2 - r.1 := by
      rw [List.map_map]
      apply List.map_congr_left
      intro r hr
      obtain ⟨i, hi, rfl⟩ := List.getElem_of_mem hr
      have := (List.forall₂_iff_get.1 h).2 i hi (by omega)
      simp only [List.get_eq_getElem] at this
      simp only [Function.comp]
      omega
    have hfst : (ranges.map fun r => (r.1, r.2 - 1)).map Prod.fst = ranges.map Prod.fst := by
      rw [List.map_map]; rfl
    have h0 : 0 ∉ ranges.map fun r => r.2 - r.1 := by
      intro hm
      obtain ⟨r, hr, e⟩ := List.mem_map.1 hm
      obtain ⟨i, hi, rfl⟩ := List.getElem_of_mem hr
      have := (List.forall₂_iff_get.1 h).2 i hi (by omega)
      simp only [List.get_eq_getElem] at this
      omega
    unfold CT.tryDice
    rw [if_neg (by simpa using hl), h1 h]
    simp only [hshape, hfst]
    rw [if_neg h0]
    generalize hsh : (ranges.map fun r => r.2 - r.1) = shape at *
    generalize hlo : ranges.map Prod.fst = los at *
    have hsl : shape.length = los.length := by rw [← hsh, ← hlo]; simp
    have hvs : ∀ idx, Valid idx shape → Valid (List.zipWith (· + ·) idx los) t.shape := by
      intro idx hv
      rw [← hlo]
      exact valid_shift h (hsh ▸ hv)
    have hget : ∀ i, i < shape.prod → t.get (CT.unrank (List.zip (stridesFrom 1 shape) los) i).1 = .ok (a.cell (List.zipWith (· + ·) (digits 1 shape i) los)) := by
      intro i hi
      rw [unrank_eq shape los 1 i hsl (by omega) h0 (by omega)]
      have hv := hvs _ (place_digits shape 1 i (by omega) h0 (by omega)).1
      have g1 := get_valid w hv
      have g2 := tryGet_valid w hv
      rw [ht.2 _ (ht.1 ▸ hv)] at g2
      simp only [Except.ok.injEq, Option.some.injEq] at g2
      rw [g1, g2]
    have hloop := forLoop_post (body := fun i (b : Buf α) => do
          let v ← t.get (CT.unrank (List.zip (stridesFrom 1 shape) los) i).1
          b.write i v)
      (fun j (b : Buf α) => b.size = shape.prod ∧ ∀ i, i < j → b.data i = a.cell (List.zipWith (· + ·) (digits 1 shape i) los))
      (Q := fun (b : Buf α) => b.size = shape.prod ∧ ∀ i, i < shape.prod → b.data i = a.cell (List.zipWith (· + ·) (digits 1 shape i) los))
      0 (count shape) ⟨count shape, junk⟩ (by omega) ⟨count_eq shape, fun i hi => by omega⟩ (by
        intro j b _ hj ⟨b1, b2⟩
        rw [count_eq] at hj
        refine ⟨b.put j (a.cell (List.zipWith (· + ·) (digits 1 shape j) los)), ?_, b1, ?_⟩
        · rw [hget j hj]
          simp only [Res.ok_bind]
          rw [Buf.write_eq (by omega)]
        · intro i hi
          by_cases e : i = j
          · subst e; simp
          · rw [Buf.put_data_ne _ _ _ _ e]; exact b2 i (by omega)) (by
        intro b hb
        rw [count_eq] at hb
        exact hb)
    obtain ⟨b, e, b1, b2⟩ := hloop
    rw [e]
    obtain ⟨w', hlin⟩ := packed_of h0 (b := b) b1
    refine ⟨_, rfl, w', rfl, ?_⟩
    intro idx hv
    have g := tryGet_valid w' (idx := idx) hv
    simp only [hlin idx hv, Nat.zero_add] at g
    rw [g, b2 _ (place_lt hv)]
    have := digits_place 1 0 (by omega) (by omega) hv
    rw [Nat.one_mul, Nat.add_zero] at this
    rw [this]

/-! ### Matrices -/

/-- **C294.** The tensor made from a dense matrix (also from a view) has the extents (columns, rows), and its cell (c, r) is the cell of the
matrix in row r and column c; a matrix without rows or columns is refused. -/
theorem C294_from_matrix (x : DM α) (a : Mat α) (hx : x.Is a) :
    (a.rows = 0 ∨ a.cols = 0 → (ofMatrix x).Throws) ∧
    (0 < a.rows → 0 < a.cols → ∃ t, ofMatrix x = .ok t ∧ t.WF x.h.rowSkip ∧
      t.Is ⟨[a.cols, a.rows], fun idx => a.cell (idx.getD 1 0) (idx.getD 0 0)⟩) := by
  have e1 := hx.rows; have e2 := hx.cols
  obtain ⟨w, -, -, hg⟩ := hx
  unfold ofMatrix
  constructor
  · intro h
    exact ⟨_, if_pos (by simp only [List.mem_cons, List.not_mem_nil, or_false]; omega)⟩
  · intro h1 h2
    rw [if_neg (by simp only [List.mem_cons, List.not_mem_nil, or_false]; omega)]
    have wt : CT.WF (⟨[x.h.numCols, x.h.numRows], [1, x.h.rowSkip], x.h.numRows * x.h.numCols, x.h.base, x.mem⟩ : CT α) x.h.rowSkip := by
      constructor
      · simp only [List.mem_cons, List.not_mem_nil, or_false]; omega
      · intro d ds hs
        simp only [List.cons.injEq] at hs
        obtain ⟨rfl, rfl⟩ := hs
        exact ⟨w.skip, rfl⟩
      · intro hs; cases hs
      · simp [Nat.mul_comm]
      · intro idx hv
        cases hv with
        | cons c1 hv =>
        cases hv with
        | cons c2 hv =>
        cases hv
        have := w.inb _ _ c2 c1
        simp only [lin, List.tail_cons, linRest]
        omega
    refine ⟨_, rfl, wt, by simp [e1, e2], ?_⟩
    intro idx hv
    have hv' : Valid idx [x.h.numCols, x.h.numRows] := by rw [e1, e2]; exact hv
    rw [tryGet_valid wt hv']
    cases hv' with
    | cons c1 hv' =>
    cases hv' with
    | cons c2 hv' =>
    cases hv'
    rename_i c r
    have := w.get c2 c1
    rw [hg r c (by omega) (by omega)] at this
    simp only [Except.ok.injEq] at this
    simp only [lin, List.tail_cons, linRest, List.getD_cons_zero, List.getD_cons_succ]
    rw [this]
    congr 3
    omega

/-- **C295.** A tensor of rank 2 without unused room is converted to the matrix with its cells: cell (r, c) is the cell (c, r) of the tensor; for
other ranks there is no matrix. In particular a matrix that is not a view survives the conversion to a tensor and back. -/
theorem C295_to_matrix (t : CT α) (w : t.Packed) (a : Ten α) (ht : t.Is a) :
    (a.shape.length ≠ 2 → t.toMatrix = none) ∧
    (∀ c r, a.shape = [c, r] → ∃ x, t.toMatrix = some x ∧ x.Is ⟨r, c, fun i j => a.cell [j, i]⟩) := by
  constructor
  · intro h
    rw [← ht.1] at h
    unfold CT.toMatrix
    split
    · rename_i hs; rw [hs] at h; exact absurd rfl h
    · rfl
  · intro c r hs
    have hs' : t.shape = [c, r] := ht.1.trans hs
    unfold CT.toMatrix
    rw [hs']
    refine ⟨_, rfl, ?_⟩
    have hst := (w.lay c [r] hs').2
    rw [hs'] at hst
    have hlin : ∀ i j, lin [j, i] t.strides = j + i * c := by
      intro i j
      rw [hst]
      simp [lin, linRest, stridesFrom]
    have wx : (⟨{ Hdr.new r c with base := t.base }, t.mem⟩ : DM α).WF := by
      constructor
      · exact Nat.le_refl _
      · rfl
      · intro i j hi hj
        have := w.inb [j, i] (by rw [hs']; exact .cons hj (.cons hi .nil))
        rw [hlin] at this
        simp only [Hdr.new] at *
        omega
      · intro _; rfl
    refine ⟨wx, rfl, rfl, ?_⟩
    intro i j hi hj
    rw [wx.get hi hj]
    have hv : Valid [j, i] t.shape := by rw [hs']; exact .cons hj (.cons hi .nil)
    have g := tryGet_valid w hv
    rw [ht.2 _ (ht.1 ▸ hv), hlin] at g
    simp only [Except.ok.injEq, Option.some.injEq] at g
    show Except.ok (t.mem.data (t.base + i * c + j)) = Except.ok (a.cell [j, i])
    rw [g]
    congr 2
    omega

/-! ### Comparison -/

theorem memcmp_ok (eqv : α → α → Bool) (a b : Buf α) (pa pb n : Nat) (ha : pa + n ≤ a.size) (hb : pb + n ≤ b.size) :
    ∃ r, CT.memcmp eqv a pa b pb n = .ok r ∧ (r = true ↔ ∀ i, i < n → eqv (a.data (pa + i)) (b.data (pb + i)) = true) := by
  unfold CT.memcmp
  refine forLoop_post (fun j (acc : Bool) => acc = true ↔ ∀ i, i < j → eqv (a.data (pa + i)) (b.data (pb + i)) = true) 0 n true (by omega)
    (by simp) ?_ (fun _ h => h)
  intro j acc _ hj hI
  rw [Buf.read_eq (by omega), Buf.read_eq (by omega)]
  refine ⟨_, rfl, ?_⟩
  show (acc && eqv (a.data (pa + j)) (b.data (pb + j))) = true ↔ _
  rw [Bool.and_eq_true, hI]
  constructor
  · rintro ⟨h1, h2⟩ i hi
    by_cases e : i = j
    · subst e; exact h2
    · exact h1 i (by omega)
  · intro h
    exact ⟨fun i hi => h i (by omega), h j (by omega)⟩

theorem packed_lin {t : CT α} (w : t.Packed) {idx : List Nat} (h : Valid idx t.shape) : lin idx t.strides = place idx t.shape := by
  cases hs : t.shape with
  | nil => rw [hs] at h; cases h; rfl
  | cons d ds =>
    rw [hs] at h
    cases h with
    | cons h1 h2 =>
      rw [lin_wf w hs (.cons h1 h2), hs]
      rfl

theorem prod_pos : ∀ ds : List Nat, 0 ∉ ds → 0 < ds.prod
  | [], _ => by simp
  | d :: ds, h => by
    simp only [List.mem_cons, not_or] at h
    rw [List.prod_cons]
    exact Nat.mul_pos (by omega) (prod_pos ds h.2)

theorem packed_size {t : CT α} (w : t.Packed) : t.base + t.shape.prod ≤ t.mem.size := by
  have hp := prod_pos _ w.pos
  have h := place_digits t.shape 1 (t.shape.prod - 1) (by omega) w.pos (by omega)
  have := w.inb _ h.1
  rw [packed_lin w h.1] at this
  have := h.2
  omega

/-- **C296.** Two tensors without unused room are equal for `==` exactly if they have the same extents and, cell by cell, the same bytes. -/
theorem C296_equality (eqv : α → α → Bool) (t u : CT α) (wt : t.Packed) (wu : u.Packed) (a b : Ten α) (ht : t.Is a) (hu : u.Is b) :
    ∃ r, t.equal eqv u = .ok r ∧ (r = true ↔ a.shape = b.shape ∧ ∀ idx, Valid idx a.shape → eqv (a.cell idx) (b.cell idx) = true) := by
  unfold CT.equal
  by_cases hs : t.shape = u.shape
  · rw [if_neg (by simpa using hs)]
    obtain ⟨r, e, h⟩ := memcmp_ok eqv t.mem u.mem t.base u.base t.total (by rw [wt.tot]; exact packed_size wt) (by rw [wt.tot, hs]; exact packed_size wu)
    refine ⟨r, e, h.trans ?_⟩
    have hcell : ∀ idx, Valid idx t.shape → t.mem.data (t.base + place idx t.shape) = a.cell idx ∧ u.mem.data (u.base + place idx t.shape) = b.cell idx := by
      intro idx hv
      have g1 := tryGet_valid wt hv
      rw [ht.2 _ (ht.1 ▸ hv), packed_lin wt hv] at g1
      have hv' : Valid idx u.shape := hs ▸ hv
      have g2 := tryGet_valid wu hv'
      rw [hu.2 _ (hu.1 ▸ hv'), packed_lin wu hv', ← hs] at g2
      simp only [Except.ok.injEq, Option.some.injEq] at g1 g2
      exact ⟨g1.symm, g2.symm⟩
    rw [wt.tot]
    constructor
    · intro h
      refine ⟨by rw [← ht.1, ← hu.1, hs], fun idx hv => ?_⟩
      have hv : Valid idx t.shape := by rw [ht.1]; exact hv
      obtain ⟨c1, c2⟩ := hcell idx hv
      have := h _ (place_lt hv)
      rwa [c1, c2] at this
    · rintro ⟨_, h⟩ i hi
      obtain ⟨d1, d2⟩ := place_digits t.shape 1 i (by omega) wt.pos (by omega)
      obtain ⟨c1, c2⟩ := hcell _ d1
      have hp : place (digits 1 t.shape i) t.shape = i := by omega
      rw [hp] at c1 c2
      rw [c1, c2]
      exact h _ (ht.1 ▸ d1)
  · rw [if_pos hs]
    refine ⟨false, rfl, ?_⟩
    rw [← ht.1, ← hu.1]
    simp [hs]

/-! ### Removing dimensions of extent one -/

theorem reduce_noop {shape strides : List Nat} : ∀ (k lo : Nat), lo + k ≤ shape.length → (∀ i (h : i < shape.length), lo ≤ i → i < lo + k → shape[i] ≠ 1) →
    forFrom lo k (shape, strides) CT.reduceStep = .ok (shape, strides)
  | 0, _, _, _ => rfl
  | k + 1, lo, h, hn => by
    have : CT.reduceStep lo (shape, strides) = .ok (shape, strides) := by
      unfold CT.reduceStep
      simp only
      rw [List.getElem?_eq_getElem (by omega)]
      simp only
      rw [if_neg (hn lo (by omega) (by omega) (by omega))]
    show CT.reduceStep lo (shape, strides) >>= (fun s => forFrom (lo + 1) k s CT.reduceStep) = _
    rw [this]
    exact reduce_noop k (lo + 1) (by omega) fun i h h1 h2 => hn i h (by omega) (by omega)

theorem stridesFrom_append : ∀ (ds es : List Nat) (s : Nat), stridesFrom s (ds ++ es) = stridesFrom s ds ++ stridesFrom (s * ds.prod) es
  | [], es, s => by simp [stridesFrom]
  | d :: ds, es, s => by simp [stridesFrom, stridesFrom_append ds es, Nat.mul_assoc]

theorem stridesFrom_length : ∀ (ds : List Nat) (s : Nat), (stridesFrom s ds).length = ds.length
  | [], _ => rfl
  | d :: ds, s => by simp [stridesFrom, stridesFrom_length ds]

/-- **C297.** `reduceRank` leaves a tensor alone that has no extent 1, and removes an extent 1 in the last position, so that the cells of the new
tensor are those of the old one with a last index zero. -/
theorem C297_reduce_rank_last (t : CT α) (k : Nat) (w : t.WF k) (a : Ten α) (ht : t.Is a) :
    (1 ∉ a.shape → t.reduceRank = .ok t) ∧
    (∀ d ds, 1 ∉ d :: ds → a.shape = (d :: ds) ++ [1] →
      ∃ t', t.reduceRank = .ok t' ∧ t'.WF k ∧ t'.Is ⟨d :: ds, fun idx => a.cell (idx ++ [0])⟩) := by
  constructor
  · intro h
    rw [← ht.1] at h
    unfold CT.reduceRank forLoop
    rw [reduce_noop _ _ (by omega) fun i hi _ _ he => h (he ▸ List.getElem_mem hi)]
    rfl
  · intro d ds h1 hs
    have hs' : t.shape = (d :: ds) ++ [1] := ht.1.trans hs
    obtain ⟨hk, hst⟩ := w.lay d (ds ++ [1]) (by simpa using hs')
    rw [stridesFrom_append] at hst
    simp only [stridesFrom] at hst
    have hlen : (1 :: stridesFrom k ds).length = ds.length + 1 := by simp [stridesFrom_length]
    have hst' : t.strides = (1 :: stridesFrom k ds) ++ [k * ds.prod] := hst
    have e : t.reduceRank = .ok { t with shape := d :: ds, strides := 1 :: stridesFrom k ds } := by
      unfold CT.reduceRank forLoop
      have hl : t.shape.length - 0 = (ds.length + 1) + 1 := by rw [hs']; simp
      rw [hl, FrameBin.forLoop_last, reduce_noop _ _ (by rw [hs']; simp) (by
        intro i hi _ hlt he
        apply h1
        have : t.shape[i] = (d :: ds)[i]'(by simpa using hlt) := by
          simp only [hs']
          rw [List.getElem_append_left]
        rw [← he, this]
        exact List.getElem_mem _)]
      have hstep : CT.reduceStep (0 + (ds.length + 1)) (t.shape, t.strides) = .ok (d :: ds, 1 :: stridesFrom k ds) := by
        unfold CT.reduceStep
        simp only
        rw [hs', hst']
        have h2 : ((d :: ds) ++ [1])[0 + (ds.length + 1)]? = some 1 := by
          rw [List.getElem?_append_right (by simp)]
          simp
        rw [h2]
        simp only
        rw [if_pos trivial]
        rw [List.eraseIdx_append_of_length_le (by simp), List.eraseIdx_append_of_length_le (by rw [hlen]; omega)]
        simp [stridesFrom_length]
      simp only [Res.ok_bind]
      rw [hstep]
      rfl
    have hv : ∀ idx, Valid idx (d :: ds) → Valid (idx ++ [0]) t.shape := by
      intro idx h
      rw [hs']
      exact List.rel_append h (.cons (by omega) .nil)
    have hlin : ∀ idx, Valid idx (d :: ds) → lin (idx ++ [0]) t.strides = lin idx (1 :: stridesFrom k ds) := by
      intro idx h
      cases h with
      | cons q1 q2 =>
        rename_i i is
        rw [hst']
        simp only [List.cons_append, lin, List.tail_cons]
        congr 1
        have : ∀ (js ss : List Nat) (z : Nat), js.length = ss.length → linRest (js ++ [0]) (ss ++ [z]) = linRest js ss := by
          intro js
          induction js with
          | nil =>
            intro ss z hl
            rw [List.eq_nil_of_length_eq_zero hl.symm]
            simp [linRest]
          | cons j js ih =>
            intro ss z hl
            cases ss with
            | nil => simp at hl
            | cons s ss => simp only [List.cons_append, linRest]; rw [ih ss z (by simpa using hl)]
        exact this is _ _ (by rw [stridesFrom_length]; exact List.Forall₂.length_eq q2)
    have w' : CT.WF { t with shape := d :: ds, strides := 1 :: stridesFrom k ds } k := by
      constructor
      · intro h0
        apply w.pos
        rw [hs']
        exact List.mem_append_left _ h0
      · intro d' ds' e'
        simp only [List.cons.injEq] at e'
        obtain ⟨rfl, rfl⟩ := e'
        exact ⟨hk, rfl⟩
      · intro h; cases h
      · show t.total = _
        rw [w.tot, hs']
        simp
      · intro idx h
        have := w.inb _ (hv idx h)
        rw [hlin idx h] at this
        exact this
    refine ⟨_, e, w', rfl, ?_⟩
    intro idx h
    rw [tryGet_valid w' h]
    have g := tryGet_valid w (hv idx h)
    rw [ht.2 _ (ht.1 ▸ hv idx h), hlin idx h] at g
    rw [g]

/-- Once an extent has been removed, the loop ends beyond the end of the extents. -/
theorem reduce_short : ∀ (k lo : Nat) (q : List Nat × List Nat), q.1.length < lo + k → 0 < k → (∃ m, forFrom lo k q CT.reduceStep = .error (.ub m))
  | 0, _, _, _, h => absurd h (by omega)
  | k + 1, lo, q, h, _ => by
    show ∃ m, CT.reduceStep lo q >>= (fun s => forFrom (lo + 1) k s CT.reduceStep) = .error (.ub m)
    by_cases hlo : lo < q.1.length
    · have hk : 0 < k := by omega
      unfold CT.reduceStep
      rw [List.getElem?_eq_getElem hlo]
      simp only
      by_cases h1 : q.1[lo] = 1
      · rw [if_pos h1]
        exact reduce_short k (lo + 1) (q.1.eraseIdx lo, q.2.eraseIdx lo) (by simp only [List.length_eraseIdx]; split <;> omega) hk
      · rw [if_neg h1]
        exact reduce_short k (lo + 1) q (by omega) hk
    · unfold CT.reduceStep
      rw [List.getElem?_eq_none (by omega)]
      exact ⟨_, rfl⟩

theorem reduce_ub : ∀ (k lo : Nat) (q : List Nat × List Nat) (i : Nat), q.1.length = lo + k → lo ≤ i → i + 1 < q.1.length → q.1[i]? = some 1 →
    ∃ m, forFrom lo k q CT.reduceStep = .error (.ub m)
  | 0, lo, q, i, h, h1, h2, _ => absurd h (by omega)
  | k + 1, lo, q, i, h, h1, h2, h3 => by
    show ∃ m, CT.reduceStep lo q >>= (fun s => forFrom (lo + 1) k s CT.reduceStep) = .error (.ub m)
    have hlo : lo < q.1.length := by omega
    unfold CT.reduceStep
    rw [List.getElem?_eq_getElem hlo]
    simp only
    by_cases h4 : q.1[lo] = 1
    · rw [if_pos h4]
      exact reduce_short k (lo + 1) (q.1.eraseIdx lo, q.2.eraseIdx lo) (by simp only [List.length_eraseIdx]; rw [if_pos hlo]; omega) (by omega)
    · rw [if_neg h4]
      have hne : i ≠ lo := by
        rintro rfl
        rw [List.getElem?_eq_getElem hlo] at h3
        exact h4 (by simpa using h3)
      exact reduce_ub k (lo + 1) q i (by omega) (by omega) h2 h3

/-- **C298, refuted.** `reduceRank` on any tensor with an extent 1 that is not the last one reads beyond the end of the extents: the loop erases the extent,
but still runs to the old rank. -/
theorem C298_reduce_rank_undefined_partial (t : CT α) (i : Nat) (h : i + 1 < t.shape.length) (h1 : t.shape[i]? = some 1) :
    t.reduceRank.IsUB := by
  obtain ⟨m, e⟩ := reduce_ub t.shape.length 0 (t.shape, t.strides) i (by simp) (by omega) h h1
  unfold CT.reduceRank forLoop
  rw [Nat.sub_zero, e]
  exact ⟨m, rfl⟩

/-! ### Views -/

/-- The left two columns of the matrix with the rows `1 2 3` and `4 5 6`. -/
def exView : DM Nat := ⟨⟨2, 2, 3, 0, 0, 0, 6, true, 0, 0⟩, Buf.ofList [1, 2, 3, 4, 5, 6]⟩

theorem exView_is : exView.Is ⟨2, 2, fun r c => 3 * r + c + 1⟩ := by
  have w : exView.WF := by
    constructor
    · decide
    · decide
    · intro r c hr hc
      simp only [exView, Buf.ofList] at *
      simp
      omega
    · intro h; cases h
  refine ⟨w, rfl, rfl, ?_⟩
  intro r c hr hc
  simp only at hr hc
  rw [w.get hr hc]
  have h1 : r = 0 ∨ r = 1 := by omega
  have h2 : c = 0 ∨ c = 1 := by omega
  rcases h1 with rfl | rfl <;> rcases h2 with rfl | rfl <;> rfl

/-- **C299, refuted.** The tensor made from a matrix view shows the right cells (C294), but converting it back to a matrix and comparing it
ignore the distance of its rows in memory: the view of the left two columns of `1 2 3 / 4 5 6` becomes a matrix with the second row `3 4`, and
its tensor is not equal to the tensor with the same cells `1 2 / 4 5`, but equal to that with the cells `1 2 / 3 4`. -/
theorem C299_view_forgotten_partial : ∃ t, ofMatrix exView = .ok t ∧
    t.Is ⟨[2, 2], fun idx => 3 * idx.getD 1 0 + idx.getD 0 0 + 1⟩ ∧
    (∃ x, t.toMatrix = some x ∧ x.get 1 0 = .ok 3 ∧ x.get 1 1 = .ok 4) ∧
    t.equal (fun a b => a == b) ⟨[2, 2], [1, 2], 4, 0, Buf.ofList [1, 2, 4, 5]⟩ = .ok false ∧
    t.equal (fun a b => a == b) ⟨[2, 2], [1, 2], 4, 0, Buf.ofList [1, 2, 3, 4]⟩ = .ok true := by
  obtain ⟨t, e, _, h⟩ := (C294_from_matrix exView _ exView_is).2 (by decide) (by decide)
  refine ⟨t, e, h, ?_⟩
  have e' : t = ⟨[2, 2], [1, 3], 4, 0, Buf.ofList [1, 2, 3, 4, 5, 6]⟩ := by
    have : ofMatrix exView = .ok ⟨[2, 2], [1, 3], 4, 0, Buf.ofList [1, 2, 3, 4, 5, 6]⟩ := rfl
    rw [this] at e
    exact (Except.ok.inj e).symm
  subst e'
  exact ⟨⟨_, rfl, rfl, rfl⟩, rfl, rfl⟩

/-- **C300, refuted.** The only cell of a tensor of rank zero can be read, but not written: `trySet` refuses, and `set` reads the first element of the
empty index vector. -/
theorem C300_rank_zero_write_partial (t : CT α) (k : Nat) (w : t.WF k) (h : t.shape = []) (v : α) :
    (∃ u, t.tryGet [] = .ok (some u)) ∧ t.trySet [] v = .ok (t, false) ∧ (t.set [] v).IsUB := by
  refine ⟨⟨_, tryGet_valid w (by rw [h]; exact .nil)⟩, ?_, ?_⟩
  · unfold CT.trySet
    rw [if_pos (by simp [h])]
  · unfold CT.set
    exact ⟨_, if_pos (.inr rfl)⟩

/-! ### Examples -/

/-- A tensor with the extents 2, 3 and 2, counting up. -/
example : ∃ t : CT Nat, create 0 0 0 (fun n => n) (fun _ => 77) [2, 3, 2] .iota = .ok t ∧ t.Packed ∧ t.tryGet [1, 2, 1] = .ok (some 11) ∧
    t.tryGet [1, 3, 1] = .ok none := by
  obtain ⟨t, e, w, hs, h⟩ := (C292_create 0 0 0 (fun n : Nat => n) (fun _ => 77) [2, 3, 2] .iota).2 (by decide)
  refine ⟨t, e, w, (h [1, 2, 1] (.cons (by decide) (.cons (by decide) (.cons (by decide) .nil)))).2.2.2 rfl, ?_⟩
  exact (C291_element_access t _ w [1, 3, 1] 0).1 (by rw [hs]; intro hv; simp [Valid] at hv) |>.1

/-- Dicing it, the cells 1, 3, 5 of the second half remain. -/
example : (do
    let t ← create 0 0 0 (fun n => n) (fun _ => 77) [2, 3, 2] .iota
    let u ← t.tryDice (fun _ => 88) [(1, 2), (0, 3), (1, 2)]
    match u with
    | some u => .ok (u.shape, u.mem.toList 3)
    | none => .ok ([], [])) = .ok ([1, 3, 1], [7, 9, 11]) := rfl

example : RangesOk [(1, 2), (0, 3), (1, 2)] [2, 3, 2] := .cons (by decide) (.cons (by decide) (.cons (by decide) .nil))

end Verif.Tens

/-
  Specification vocabulary for partitioning. Independent of the model.
-/
namespace Verif.Spec

/-- The half-open ranges, in order, are non-empty, consecutive, start at `a` and end at `b`. -/
def Tiles (a b : Nat) : List (Nat × Nat) → Prop
  | [] => a = b
  | (lo, hi) :: rest => lo = a ∧ lo < hi ∧ Tiles hi b rest

/-- Like `Tiles`, but ranges may be empty. -/
def TilesE (a b : Nat) : List (Nat × Nat) → Prop
  | [] => a = b
  | (lo, hi) :: rest => lo = a ∧ lo ≤ hi ∧ TilesE hi b rest

/-- In how many ranges of the list `r` lies. -/
def coverCount (rs : List (Nat × Nat)) (r : Nat) : Nat :=
  rs.countP (fun x => decide (x.1 ≤ r ∧ r < x.2))

/-- Every row of `[a, b)` is in exactly one range, other rows in none. -/
def ExactCover (a b : Nat) (rs : List (Nat × Nat)) : Prop :=
  ∀ r, coverCount rs r = if a ≤ r ∧ r < b then 1 else 0

theorem Tiles.toE {a b : Nat} {rs : List (Nat × Nat)} (h : Tiles a b rs) : TilesE a b rs := by
  induction rs generalizing a with
  | nil => exact h
  | cons x rs ih => obtain ⟨h1, h2, h3⟩ := h; exact ⟨h1, Nat.le_of_lt h2, ih h3⟩

theorem TilesE.le {a b : Nat} {rs : List (Nat × Nat)} (h : TilesE a b rs) : a ≤ b := by
  induction rs generalizing a with
  | nil => exact Nat.le_of_eq h
  | cons x rs ih => obtain ⟨h1, h2, h3⟩ := h; have := ih h3; omega

theorem TilesE.cover {a b : Nat} {rs : List (Nat × Nat)} (h : TilesE a b rs) : ExactCover a b rs := by
  induction rs generalizing a with
  | nil =>
    intro r; simp only [TilesE] at h; subst h
    simp [coverCount]
  | cons x rs ih =>
    obtain ⟨h1, h2, h3⟩ := h
    intro r
    have hle := h3.le
    have := ih h3 r
    simp only [coverCount, List.countP_cons] at *
    rw [this]
    simp only [decide_eq_true_eq]
    split <;> split <;> split <;> omega

theorem Tiles.cover {a b : Nat} {rs : List (Nat × Nat)} (h : Tiles a b rs) : ExactCover a b rs := h.toE.cover

theorem Tiles.length_le {a b : Nat} {rs : List (Nat × Nat)} (h : Tiles a b rs) : rs.length ≤ b - a := by
  induction rs generalizing a with
  | nil => simp
  | cons x rs ih =>
    obtain ⟨h1, h2, h3⟩ := h
    have := ih h3; have := h3.toE.le
    simp only [List.length_cons]; omega

theorem Tiles.append {a b c : Nat} {rs ss : List (Nat × Nat)} (h : Tiles a b rs) (h' : Tiles b c ss) :
    Tiles a c (rs ++ ss) := by
  induction rs generalizing a with
  | nil => simp only [Tiles] at h; subst h; simpa using h'
  | cons x rs ih => obtain ⟨h1, h2, h3⟩ := h; exact ⟨h1, h2, ih h3⟩

end Verif.Spec

/-
  The invariant of the pass, and its preservation by one round of fusion.
-/
import Verif.Hor.Step

namespace Verif.Hor
variable {β : Type}

/-- Each pipeline is directly followed by an operation that is `good` for it. -/
def Fol (good : Nat → Op β → Prop) : List (Op β) → Prop
  | [] => True
  | .plain _ _ _ _ :: B => Fol good B
  | .pipe i _ :: B => (∃ o, B.head? = some o ∧ good i o) ∧ Fol good B

theorem Fol.left {good : Nat → Op β → Prop} {x : Op β} (hx : ∀ i, ¬ good i x) : ∀ {X Y : List (Op β)}, Fol good (X ++ x :: Y) → Fol good X
  | [], _, _ => trivial
  | .plain _ _ _ _ :: X, Y, h => Fol.left (X := X) hx h
  | .pipe i p :: X, Y, ⟨⟨o, h1, h2⟩, h3⟩ => by
    refine ⟨⟨o, ?_, h2⟩, Fol.left (X := X) hx h3⟩
    cases X with
    | nil =>
      have h1' : x = o := by simpa using h1
      subst h1'
      exact absurd h2 (hx i)
    | cons y X => simpa using h1

theorem Fol.right {good : Nat → Op β → Prop} : ∀ {X Y : List (Op β)}, Fol good (X ++ Y) → Fol good Y
  | [], _, h => h
  | .plain _ _ _ _ :: X, Y, h => Fol.right (X := X) h
  | .pipe i p :: X, Y, ⟨_, h⟩ => Fol.right (X := X) h

theorem Fol.append {good : Nat → Op β → Prop} : ∀ {X Y : List (Op β)}, Fol good X → Fol good Y → Fol good (X ++ Y)
  | [], _, _, h => h
  | .plain _ _ _ _ :: X, Y, h, h' => Fol.append (X := X) h h'
  | .pipe i p :: X, Y, ⟨⟨o, h1, h2⟩, h3⟩, h' => by
    refine ⟨⟨o, ?_, h2⟩, Fol.append h3 h'⟩
    cases X with
    | nil => simp at h1
    | cons y X => simpa using h1

theorem Fol.filter {good : Nat → Op β → Prop} {k : Op β → Bool} : ∀ {X : List (Op β)}, Fol good X → (∀ i p, .pipe i p ∈ X → k (.pipe i p) = true) →
    (∀ i p o, .pipe i p ∈ X → good i o → o ∈ X → k o = true) → Fol good (X.filter k)
  | [], _, _, _ => trivial
  | .plain i xs cs f :: X, h, hp, hg => by
    have := Fol.filter (X := X) h (fun i p hm => hp i p (by simp [hm])) (fun i p o hm hh ho => hg i p o (by simp [hm]) hh (by simp [ho]))
    rw [List.filter_cons]
    split
    · exact this
    · exact this
  | .pipe i p :: X, ⟨⟨o, h1, h2⟩, h3⟩, hp, hg => by
    have := Fol.filter (X := X) h3 (fun i p hm => hp i p (by simp [hm])) (fun i p o hm hh ho => hg i p o (by simp [hm]) hh (by simp [ho]))
    rw [List.filter_cons_of_pos (hp i p (by simp))]
    refine ⟨⟨o, ?_, h2⟩, this⟩
    cases X with
    | nil => simp at h1
    | cons y X =>
      simp only [List.head?_cons, Option.some.injEq] at h1
      subst h1
      rw [List.filter_cons_of_pos (hg i p y (by simp) h2 (by simp))]
      rfl

theorem Fol.map {good good' : Nat → Op β → Prop} {r : Op β → Op β} (hr : ∀ i xs cs f, ∃ xs' cs', r (.plain i xs cs f) = .plain i xs' cs' f)
    (hr' : ∀ i p, ∃ p', r (.pipe i p) = .pipe i p') : ∀ {X : List (Op β)}, Fol good X →
      (∀ i p o, .pipe i p ∈ X → o ∈ X → good i o → good' i (r o)) → Fol good' (X.map r)
  | [], _, _ => trivial
  | .plain i xs cs f :: X, h, hg => by
    obtain ⟨xs', cs', e⟩ := hr i xs cs f
    rw [List.map_cons, e]
    exact Fol.map hr hr' (X := X) h fun i p o hm ho hh => hg i p o (by simp [hm]) (by simp [ho]) hh
  | .pipe i p :: X, ⟨⟨o, h1, h2⟩, h3⟩, hg => by
    obtain ⟨p', e⟩ := hr' i p
    rw [List.map_cons, e]
    refine ⟨⟨r o, by simp [h1], hg i p o (by simp) (by
      cases X with
      | nil => simp at h1
      | cons y X => simp only [List.head?_cons, Option.some.injEq] at h1; simp [h1]) h2⟩, ?_⟩
    exact Fol.map hr hr' h3 fun i p o hm ho hh => hg i p o (by simp [hm]) (by simp [ho]) hh

/-- `o` uses a result of the pipeline `i` and depends on no other pipeline; `T x y`: the operation `x` depends on the pipeline `y`. -/
def Good (T : Nat → Nat → Prop) (i : Nat) (o : Op β) : Prop := (∃ j, Val.res i j ∈ o.operands) ∧ ∀ y, T o.id y → y = i

/-- The invariant: `V` are the values of all results, `T x y` holds if the operation `x` depends on the pipeline `y`, pipelines that read the
    same matrix are in the same class, `L` is the number of rows that the pipelines of a class split. -/
structure Inv (E : Engine β) (as : List β) (B : List (Op β)) (V : Env β) (T : Nat → Nat → Prop) (cls L : Nat → Nat) (ps : List (Nat × Nat)) :
    Prop where
  nodup : (ids B).Nodup
  ord : OrderedFrom [] B
  sat : Sat E as V B
  wf : ∀ i p, .pipe i p ∈ B → p.Wf
  bodies : ((pipes B).flatMap fun x => x.2.body.ops.map (·.id)).Nodup
  dep : ∀ o ∈ B, ∀ i j, Val.res i j ∈ o.needs → ((∃ p, .pipe i p ∈ B) → T o.id i) ∧ ∀ y, T i y → T o.id y
  ind : ∀ i p, .pipe i p ∈ B → ∀ y, ¬ T i y
  cap : ∀ i xs cs f, .plain i xs cs f ∈ B → ∀ k j, Val.res k j ∈ cs → (∀ p, .pipe k p ∉ B) ∧ ∀ y, ¬ T k y
  fol : Fol (Good T) B
  rows : ∀ i p, .pipe i p ∈ B → ∀ ins, mapO (look as V) p.ins = some ins → numRows E p.splits ins = L (cls i)
  pairs : PInv ((pipes B).map (·.1)) cls ps

theorem operands_needs {o : Op β} {v : Val} (h : v ∈ o.operands) : v ∈ o.needs := by
  cases o with
  | plain i xs cs f => exact List.mem_append_left _ h
  | pipe i p => exact h

theorem find_id {B : List (Op β)} (hn : (ids B).Nodup) {o : Op β} (h : o ∈ B) : B.find? (fun x => x.id == o.id) = some o := by
  cases hf : B.find? fun x => x.id == o.id with
  | none =>
    have := List.find?_eq_none.1 hf o h
    simp at this
  | some x =>
    have h1 := List.find?_some hf
    have h2 := List.mem_of_find?_eq_some hf
    rw [op_unique hn h2 h (by simpa using h1)]

/-- Dependencies found by the compiler are dependencies. -/
theorem opDep_sound {B : List (Op β)} {T : Nat → Nat → Prop} {a : Nat} {p : Pipe β} (ha : .pipe a p ∈ B)
    (hT : ∀ o ∈ B, ∀ i j, Val.res i j ∈ o.needs → ((∃ p, .pipe i p ∈ B) → T o.id i) ∧ ∀ y, T i y → T o.id y) {o : Op β} (ho : o ∈ B)
    (h : opDep B o a = true) : T o.id a := by
  have key : ∀ n v, valDep B a n v = true → ∀ i j, v = .res i j → i = a ∨ T i a := by
    intro n
    induction n with
    | zero => intro v h; simp [valDep] at h
    | succ n ih =>
      rintro v h i j rfl
      rw [valDep] at h
      split at h
      · exact .inl ‹_›
      · split at h
        · simp at h
        · rename_i o' hf
          have h1 := List.find?_some hf
          have h2 := List.mem_of_find?_eq_some hf
          have h3 : o'.id = i := by simpa using h1
          split at h
          · simp at h
          · obtain ⟨w, hw, hd⟩ := List.any_eq_true.1 h
            cases w with
            | arg k => cases n <;> simp [valDep] at hd
            | res i' j' =>
              have hm := hT o' h2 i' j' (operands_needs hw)
              right
              rw [← h3]
              rcases ih _ hd i' j' rfl with rfl | h'
              · exact hm.1 ⟨p, ha⟩
              · exact hm.2 a h'
  obtain ⟨w, hw, hd⟩ := List.any_eq_true.1 h
  cases w with
  | arg k => simp [valDep] at hd
  | res i' j' =>
    have hm := hT o ho i' j' (operands_needs hw)
    rcases key _ _ hd i' j' rfl with rfl | h'
    · exact hm.1 ⟨p, ha⟩
    · exact hm.2 a h'

theorem pos_eq {X Y : List (Op β)} {o : Op β} (h : o.id ∉ ids X) : pos (X ++ o :: Y) o.id = X.length := by
  induction X with
  | nil => simp [pos, List.findIdx_cons]
  | cons x X ih =>
    rw [ids_cons, List.mem_cons, not_or] at h
    have : (x.id == o.id) = false := by simpa using Ne.symm h.1
    have ih' := ih h.2
    unfold pos at ih' ⊢
    rw [List.cons_append, List.findIdx_cons, this, cond_false, ih', List.length_cons]

theorem pos_lt_of_mem {X Y : List (Op β)} {i : Nat} (h : i ∈ ids X) : pos (X ++ Y) i < X.length := by
  obtain ⟨o, ho, rfl⟩ := mem_ids.1 h
  unfold pos
  rw [List.findIdx_append]
  have : X.findIdx (fun x => x.id == o.id) < X.length := List.findIdx_lt_length.2 ⟨o, ho, by simp⟩
  rw [if_pos this]
  exact this

/-- Uses come after definitions. -/
theorem pos_uses {B : List (Op β)} (hn : (ids B).Nodup) (ho : OrderedFrom [] B) {o : Op β} (h : o ∈ B) {i j : Nat} (hu : Val.res i j ∈ o.needs) :
    i ∈ ids B ∧ pos B i < pos B o.id ∧ pos B o.id < B.length := by
  obtain ⟨X, Y, rfl⟩ := List.append_of_mem h
  have h1 := (ordered_append.1 ho).2
  have hi : i ∈ ids X := by simpa using h1.1 i j hu
  have hoX : o.id ∉ ids X := fun hm => by
    rw [ids_append] at hn
    exact (List.nodup_append.1 hn).2.2 _ hm o.id (by simp [ids_cons]) rfl
  rw [pos_eq hoX]
  refine ⟨?_, pos_lt_of_mem hi, by simp⟩
  rw [ids_append]
  exact List.mem_append_left _ hi

/-- The bound of the recursion does not matter. -/
theorem valDep_stable {B : List (Op β)} (hn : (ids B).Nodup) (ho : OrderedFrom [] B) (a : Nat) : ∀ (c : Nat) (i j k m : Nat), pos B i = c →
    valDep B a k (.res i j) = true → c + 1 ≤ m → valDep B a m (.res i j) = true := by
  intro c
  induction c using Nat.strongRecOn with
  | ind c ih =>
    intro i j k m hc h hm
    cases k with
    | zero => simp [valDep] at h
    | succ k =>
      cases m with
      | zero => omega
      | succ m =>
        rw [valDep] at h ⊢
        split
        · rfl
        · rename_i hne
          rw [if_neg hne] at h
          split at h
          · simp at h
          · rename_i o hf
            have h1 := List.find?_some hf
            have h2 := List.mem_of_find?_eq_some hf
            have h3 : o.id = i := by simpa using h1
            split at h
            · simp at h
            · rename_i hp
              rw [if_neg hp]
              obtain ⟨w, hw, hd⟩ := List.any_eq_true.1 h
              refine List.any_eq_true.2 ⟨w, hw, ?_⟩
              cases w with
              | arg q => cases k <;> simp [valDep] at hd
              | res i' j' =>
                have hpos := pos_uses hn ho h2 (operands_needs hw)
                rw [h3, hc] at hpos
                exact ih (pos B i') (by omega) i' j' k m rfl hd (by omega)

/-- What an operation uses does not depend on `a` if the operation does not. -/
theorem opDep_operand {B : List (Op β)} (hn : (ids B).Nodup) (ho : OrderedFrom [] B) {a : Nat} {o z : Op β} (hO : o ∈ B) (hz : z ∈ B)
    (hza : ¬ pos B z.id < pos B a) {j : Nat} (hu : Val.res z.id j ∈ o.operands) (h : opDep B z a = true) : opDep B o a = true := by
  refine List.any_eq_true.2 ⟨_, hu, ?_⟩
  rw [valDep]
  split
  · rfl
  · rw [find_id hn hz]
    simp only [if_neg hza]
    obtain ⟨w, hw, hd⟩ := List.any_eq_true.1 h
    refine List.any_eq_true.2 ⟨w, hw, ?_⟩
    cases w with
    | arg q => simp [valDep] at hd
    | res i' j' =>
      have h1 := pos_uses hn ho hz (operands_needs hw)
      have h2 := pos_uses hn ho hO (operands_needs hu)
      exact valDep_stable hn ho a _ i' j' _ _ rfl hd (by omega)

end Verif.Hor

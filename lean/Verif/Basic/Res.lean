/-
  Outcome type, bounds-checked heap arrays, counted loops, and the reasoning rules for them.
  These are modelling conventions (see DESIGN.md section 2), not a model of a particular source file.
-/
namespace Verif

/-- How a C++ call can fail to return normally. -/
inductive Err where
  /-- a C++ exception (`std::runtime_error`, `std::out_of_range`, ...) reaches the caller -/
  | throw (msg : String)
  /-- undefined behaviour: out-of-bounds heap access, division by zero, invalid conversion ... -/
  | ub (why : String)
  deriving DecidableEq, Repr

/-- Outcome of a modelled C++ call. -/
abbrev Res (α : Type _) := Except Err α

namespace Res
variable {α β : Type _}

/-- The call returns normally, and the result satisfies `Q`. -/
def Ok (m : Res α) (Q : α → Prop) : Prop := ∃ a, m = .ok a ∧ Q a

/-- The call throws a C++ exception. -/
def Throws (m : Res α) : Prop := ∃ msg, m = .error (.throw msg)

/-- The call runs into undefined behaviour. -/
def IsUB (m : Res α) : Prop := ∃ why, m = .error (.ub why)

theorem ok_iff {a : α} {Q : α → Prop} : Ok (.ok a) Q ↔ Q a := by
  simp [Ok]

theorem pure_iff {a : α} {Q : α → Prop} : Ok (pure a) Q ↔ Q a := ok_iff

theorem error_iff {e : Err} {Q : α → Prop} : Ok (.error e) Q ↔ False := by
  simp [Ok]

theorem bind_iff {m : Res α} {f : α → Res β} {Q : β → Prop} :
    Ok (m >>= f) Q ↔ Ok m (fun a => Ok (f a) Q) := by
  cases m <;> simp [Ok, bind, Except.bind]

theorem Ok.mono {m : Res α} {P Q : α → Prop} (h : Ok m P) (hpq : ∀ a, P a → Q a) : Ok m Q := by
  obtain ⟨a, e, p⟩ := h; exact ⟨a, e, hpq a p⟩

theorem Ok.and {m : Res α} {P Q : α → Prop} (h : Ok m P) (h' : Ok m Q) : Ok m (fun a => P a ∧ Q a) := by
  obtain ⟨a, e, p⟩ := h; obtain ⟨b, e', q⟩ := h'
  rw [e] at e'; cases e'; exact ⟨a, e, p, q⟩

theorem ok_of_eq {m : Res α} {a : α} {Q : α → Prop} (h : m = .ok a) (hq : Q a) : Ok m Q := ⟨a, h, hq⟩

theorem ite_iff {c : Prop} [Decidable c] {m n : Res α} {Q : α → Prop} :
    Ok (if c then m else n) Q ↔ (c → Ok m Q) ∧ (¬ c → Ok n Q) := by
  by_cases h : c <;> simp [h]

theorem Ok.bind {m : Res α} {f : α → Res β} {P : α → Prop} {Q : β → Prop}
    (h : Ok m P) (hf : ∀ a, P a → Ok (f a) Q) : Ok (m >>= f) Q := by
  rw [bind_iff]; exact h.mono hf

/-- Continue after a call that returned. -/
theorem ok_bind {a : α} {f : α → Res β} : ((.ok a : Res α) >>= f) = f a := rfl

theorem throws_bind {m : Res α} {f : α → Res β} (h : Throws m) : Throws (m >>= f) := by
  obtain ⟨msg, e⟩ := h; exact ⟨msg, by rw [e]; rfl⟩

/-- `Throws` of a sequence whose first part returns. -/
theorem throws_bind_of_ok {m : Res α} {f : α → Res β} {P : α → Prop} (h : Ok m P) (hf : ∀ a, P a → Throws (f a)) :
    Throws (m >>= f) := by
  obtain ⟨a, e, p⟩ := h; rw [e]; exact hf a p

end Res

/-- A heap array: number of allocated elements, and the elements. Contents of a fresh array are arbitrary. -/
structure Buf (α : Type _) where
  size : Nat
  data : Nat → α

namespace Buf
variable {α : Type _}

/-- `p[i]` as an rvalue. -/
def read (b : Buf α) (i : Nat) : Res α :=
  if i < b.size then .ok (b.data i) else .error (.ub "out-of-bounds read")

/-- The array after `p[i] = v` (no bounds check). -/
def put (b : Buf α) (i : Nat) (v : α) : Buf α :=
  { b with data := fun j => if j = i then v else b.data j }

/-- `p[i] = v`. -/
def write (b : Buf α) (i : Nat) (v : α) : Res (Buf α) :=
  if i < b.size then .ok (b.put i v) else .error (.ub "out-of-bounds write")

@[simp] theorem put_size (b : Buf α) (i : Nat) (v : α) : (b.put i v).size = b.size := rfl
theorem put_data (b : Buf α) (i : Nat) (v : α) (j : Nat) :
    (b.put i v).data j = if j = i then v else b.data j := rfl
@[simp] theorem put_data_same (b : Buf α) (i : Nat) (v : α) : (b.put i v).data i = v := by simp [put]
theorem put_data_ne (b : Buf α) (i : Nat) (v : α) (j : Nat) (h : j ≠ i) : (b.put i v).data j = b.data j := by
  simp [put, h]

theorem read_iff {b : Buf α} {i : Nat} {Q : α → Prop} :
    Res.Ok (b.read i) Q ↔ i < b.size ∧ Q (b.data i) := by
  by_cases h : i < b.size <;> simp [read, h, Res.Ok]

theorem write_iff {b : Buf α} {i : Nat} {v : α} {Q : Buf α → Prop} :
    Res.Ok (b.write i v) Q ↔ i < b.size ∧ Q (b.put i v) := by
  by_cases h : i < b.size <;> simp [write, h, Res.Ok]

theorem read_eq {b : Buf α} {i : Nat} (h : i < b.size) : b.read i = .ok (b.data i) := by simp [read, h]
theorem write_eq {b : Buf α} {i : Nat} {v : α} (h : i < b.size) : b.write i v = .ok (b.put i v) := by
  simp [write, h]

/-- The array holding exactly the given list. -/
def ofList [Inhabited α] (l : List α) : Buf α := ⟨l.length, fun i => l.getD i default⟩

/-- The first `n` elements as a list. -/
def toList (b : Buf α) (n : Nat) : List α := (List.range n).map b.data

end Buf

/-- `for (j = i; j < i + k; j++) body(j)` on loop state `s`. -/
def forFrom {σ : Type _} (i : Nat) : Nat → σ → (Nat → σ → Res σ) → Res σ
  | 0, s, _ => .ok s
  | k + 1, s, body => body i s >>= fun s' => forFrom (i + 1) k s' body

/-- `for (j = lo; j < hi; j++) body(j)`. -/
def forLoop {σ : Type _} (lo hi : Nat) (s : σ) (body : Nat → σ → Res σ) : Res σ :=
  forFrom lo (hi - lo) s body

/-- Invariant rule for counted loops: the loop returns normally and establishes the invariant at its end. -/
theorem forFrom_ok {σ : Type _} {body : Nat → σ → Res σ} (Inv : Nat → σ → Prop) :
    ∀ (k i : Nat) (s : σ), Inv i s →
      (∀ j s, i ≤ j → j < i + k → Inv j s → Res.Ok (body j s) (Inv (j + 1))) →
      Res.Ok (forFrom i k s body) (Inv (i + k))
  | 0, i, s, h0, _ => ⟨s, rfl, h0⟩
  | k + 1, i, s, h0, hs => by
    have h1 := hs i s (Nat.le_refl _) (by omega) h0
    unfold forFrom
    refine h1.bind fun a ha => ?_
    have := forFrom_ok Inv k (i + 1) a ha (fun j s' hj hj' hI => hs j s' (by omega) (by omega) hI)
    have e : i + 1 + k = i + (k + 1) := by omega
    rw [e] at this
    exact this

theorem forLoop_ok {σ : Type _} {body : Nat → σ → Res σ} (Inv : Nat → σ → Prop) (lo hi : Nat) (s : σ)
    (hle : lo ≤ hi) (h0 : Inv lo s)
    (hs : ∀ j s, lo ≤ j → j < hi → Inv j s → Res.Ok (body j s) (Inv (j + 1))) :
    Res.Ok (forLoop lo hi s body) (Inv hi) := by
  have := forFrom_ok Inv (hi - lo) lo s h0 (fun j s' h1 h2 h3 => hs j s' h1 (by omega) h3)
  have e : lo + (hi - lo) = hi := by omega
  rw [e] at this
  exact this

/-- Rule with a separate postcondition. -/
theorem forLoop_post {σ : Type _} {body : Nat → σ → Res σ} (Inv : Nat → σ → Prop) {Q : σ → Prop} (lo hi : Nat) (s : σ)
    (hle : lo ≤ hi) (h0 : Inv lo s)
    (hs : ∀ j s, lo ≤ j → j < hi → Inv j s → Res.Ok (body j s) (Inv (j + 1)))
    (hq : ∀ s, Inv hi s → Q s) :
    Res.Ok (forLoop lo hi s body) Q :=
  (forLoop_ok Inv lo hi s hle h0 hs).mono hq

/-- A loop in which some iteration throws (while every iteration returns or throws) throws. -/
theorem forFrom_throws {σ : Type _} {body : Nat → σ → Res σ} (Inv : σ → Prop) :
    ∀ (k i : Nat) (s : σ), Inv s →
      (∀ j s, i ≤ j → j < i + k → Inv s → Res.Ok (body j s) Inv ∨ Res.Throws (body j s)) →
      (∃ j, i ≤ j ∧ j < i + k ∧ ∀ s, Inv s → Res.Throws (body j s)) →
      Res.Throws (forFrom i k s body)
  | 0, i, s, _, _, ⟨j, h1, h2, _⟩ => by omega
  | k + 1, i, s, h0, hs, ⟨j, h1, h2, hj⟩ => by
    unfold forFrom
    rcases hs i s (Nat.le_refl _) (by omega) h0 with ⟨a, ea, ha⟩ | ⟨msg, em⟩
    · rw [ea]
      have hne : j ≠ i := by
        rintro rfl
        obtain ⟨msg, em⟩ := hj s h0
        rw [em] at ea; cases ea
      exact forFrom_throws Inv k (i + 1) a ha (fun j' s' a1 a2 a3 => hs j' s' (by omega) (by omega) a3)
        ⟨j, by omega, by omega, hj⟩
    · exact ⟨msg, by rw [em]; rfl⟩

theorem forLoop_throws {σ : Type _} {body : Nat → σ → Res σ} (Inv : σ → Prop) (lo hi : Nat) (s : σ) (h0 : Inv s)
    (hs : ∀ j s, lo ≤ j → j < hi → Inv s → Res.Ok (body j s) Inv ∨ Res.Throws (body j s))
    (hj : ∃ j, lo ≤ j ∧ j < hi ∧ ∀ s, Inv s → Res.Throws (body j s)) : Res.Throws (forLoop lo hi s body) := by
  unfold forLoop
  obtain ⟨j, h1, h2, h3⟩ := hj
  exact forFrom_throws Inv _ lo s h0 (fun j' s' a1 a2 a3 => hs j' s' a1 (by omega) a3) ⟨j, h1, by omega, h3⟩

@[simp] theorem forLoop_empty {σ : Type _} {body : Nat → σ → Res σ} (lo hi : Nat) (s : σ) (h : hi ≤ lo) :
    forLoop lo hi s body = .ok s := by
  unfold forLoop
  have : hi - lo = 0 := by omega
  rw [this]; rfl

theorem forLoop_succ {σ : Type _} {body : Nat → σ → Res σ} (lo hi : Nat) (s : σ) (h : lo < hi) :
    forLoop lo hi s body = body lo s >>= fun s' => forLoop (lo + 1) hi s' body := by
  unfold forLoop
  have : hi - lo = (hi - (lo + 1)) + 1 := by omega
  rw [this]; rfl

end Verif

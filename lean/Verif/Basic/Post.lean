/-
  Partial correctness of modelled calls: what holds of the result if the call returns. (A modelling convention, see DESIGN.md section 2.)
-/
import Verif.Basic.Res
import Mathlib.Data.List.Forall2

namespace Verif.Res
variable {α β σ : Type _}

/-- If the call returns, then the result satisfies `P`. -/
def Post (r : Res α) (P : α → Prop) : Prop := ∀ a, r = .ok a → P a

theorem post_ok {a : α} {P : α → Prop} (h : P a) : Post (.ok a) P := by rintro _ ⟨⟩; exact h
theorem post_error {e : Err} {P : α → Prop} : Post (.error e) P := by rintro _ ⟨⟩
theorem post_true {r : Res α} : Post r fun _ => True := fun _ _ => trivial

theorem post_bind {r : Res α} {f : α → Res β} {P : α → Prop} {Q : β → Prop} (h : Post r P) (hf : ∀ a, P a → Post (f a) Q) : Post (r >>= f) Q := by
  intro b hb
  cases r with
  | error e => cases hb
  | ok a => exact hf a (h a rfl) b hb

theorem post_bind' {r : Res α} {f : α → Res β} {Q : β → Prop} (hf : ∀ a, Post (f a) Q) : Post (r >>= f) Q :=
  post_bind (P := fun _ => True) post_true fun a _ => hf a

theorem post_mono {r : Res α} {P Q : α → Prop} (h : Post r P) (hpq : ∀ a, P a → Q a) : Post r Q := fun a ha => hpq a (h a ha)

theorem post_ite {c : Prop} [Decidable c] {a b : Res α} {P : α → Prop} (h1 : c → Post a P) (h2 : ¬ c → Post b P) : Post (if c then a else b) P := by
  by_cases h : c
  · rw [if_pos h]; exact h1 h
  · rw [if_neg h]; exact h2 h

theorem post_foldlM {f : σ → α → Res σ} (I : σ → Prop) : ∀ (l : List α) (s : σ), I s → (∀ s a, I s → Post (f s a) I) → Post (l.foldlM f s) I := by
  intro l
  induction l with
  | nil => intro s hs _; exact post_ok hs
  | cons a l ih =>
    intro s hs hf
    rw [List.foldlM_cons]
    exact post_bind (hf s a hs) fun s' hs' => ih s' hs' hf

theorem post_mapM {f : α → Res β} {R : α → β → Prop} : ∀ (l : List α), (∀ a ∈ l, Post (f a) (R a)) → Post (l.mapM f) (List.Forall₂ R l) := by
  intro l
  induction l with
  | nil => intro _; rw [List.mapM_nil]; exact post_ok .nil
  | cons a l ih =>
    intro h
    rw [List.mapM_cons]
    refine post_bind (h a (by simp)) fun b hb => ?_
    refine post_bind (ih fun x hx => h x (by simp [hx])) fun bs hbs => ?_
    exact post_ok (.cons hb hbs)

end Verif.Res

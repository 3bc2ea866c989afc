/-
  Folds, loops as folds, and the array reduction `aggAllArray`.
-/
import Verif.Agg.Spec
import Verif.Dense.Lemmas
import Verif.Csr.EwProps
import Verif.Csr.Eq

namespace Verif.Agg
open Verif Verif.Dense Verif.Csr
variable {α ρ : Type}

/-! ### Combinations -/

theorem Combines.foldl {f : ρ → ρ → ρ} : ∀ (xs : List ρ) {l : List ρ} {a : ρ}, Combines f l a → Combines f (l ++ xs) (xs.foldl f a)
  | [], l, a, h => by simpa using h
  | x :: xs, l, a, h => by
    have := Combines.foldl xs (h.node (Combines.one x))
    simpa using this

theorem CMon.unit' {f : ρ → ρ → ρ} {e : ρ} (h : CMon f e) (a : ρ) : f e a = a := by rw [h.comm, h.unit]

theorem CMon.lcomm {f : ρ → ρ → ρ} {e : ρ} (h : CMon f e) (a b c : ρ) : f a (f b c) = f b (f a c) := by
  rw [← h.assoc, h.comm a b, h.assoc]

theorem CMon.foldr_perm {f : ρ → ρ → ρ} {e : ρ} (h : CMon f e) {l l' : List ρ} (hp : l.Perm l') : l.foldr f e = l'.foldr f e := by
  induction hp with
  | nil => rfl
  | cons x _ ih => simp [ih]
  | swap x y l => simp only [List.foldr_cons]; exact h.lcomm _ _ _
  | trans _ _ ih1 ih2 => rw [ih1, ih2]

theorem CMon.foldr_append {f : ρ → ρ → ρ} {e : ρ} (h : CMon f e) (l l' : List ρ) :
    (l ++ l').foldr f e = f (l.foldr f e) (l'.foldr f e) := by
  induction l with
  | nil => simp [h.unit']
  | cons x l ih => simp only [List.cons_append, List.foldr_cons, ih, h.assoc]

theorem CMon.foldl_eq {f : ρ → ρ → ρ} {e : ρ} (h : CMon f e) : ∀ (l : List ρ) (a : ρ), l.foldl f a = f a (l.foldr f e)
  | [], a => by simp [h.unit]
  | x :: l, a => by simp only [List.foldl_cons, List.foldr_cons]; rw [h.foldl_eq l, h.assoc]

theorem CMon.foldr_replicate {f : ρ → ρ → ρ} {e : ρ} (h : CMon f e) (k : Nat) : (List.replicate k e).foldr f e = e := by
  induction k with
  | zero => rfl
  | succ k ih => simp [List.replicate_succ, ih, h.unit]

theorem CMon.combines {f : ρ → ρ → ρ} {e : ρ} (h : CMon f e) {l : List ρ} {v : ρ} (c : Combines f l v) : v = l.foldr f e := by
  induction c with
  | one x => simp [h.unit]
  | node _ _ ih1 ih2 => rw [h.foldr_append, ← ih1, ← ih2]
  | perm hp _ ih => rw [ih, h.foldr_perm hp]

/-- Repeated zeros count like one if `f z z = z`. -/
theorem CMon.zeros {f : ρ → ρ → ρ} {e z : ρ} (h : CMon f e) (hz : f z z = z) (k : Nat) :
    (List.replicate (k + 1) z).foldr f e = z := by
  induction k with
  | zero => simp [h.unit]
  | succ k ih => rw [List.replicate_succ, List.foldr_cons, ih, hz]

/-! ### Loops as folds -/

theorem forFrom_foldl {σ : Type _} {body : Nat → σ → Res σ} (g : σ → Nat → σ) : ∀ (k i : Nat) (s : σ),
    (∀ j s, i ≤ j → j < i + k → body j s = .ok (g s j)) → forFrom i k s body = .ok ((List.range' i k).foldl g s)
  | 0, i, s, _ => rfl
  | k + 1, i, s, h => by
    unfold forFrom
    rw [h i s (Nat.le_refl _) (by omega)]
    simp only [Res.ok_bind, List.range'_succ, List.foldl_cons]
    exact forFrom_foldl g k (i + 1) _ fun j s h1 h2 => h j s (by omega) (by omega)

theorem forLoop_foldl {σ : Type _} {body : Nat → σ → Res σ} (g : σ → Nat → σ) (lo hi : Nat) (s : σ)
    (h : ∀ j s, lo ≤ j → j < hi → body j s = .ok (g s j)) :
    forLoop lo hi s body = .ok ((List.range' lo (hi - lo)).foldl g s) :=
  forFrom_foldl g _ _ _ fun j s h1 h2 => h j s h1 (by omega)

theorem forLoop_foldl0 {σ : Type _} {body : Nat → σ → Res σ} (g : σ → Nat → σ) (n : Nat) (s : σ)
    (h : ∀ j s, j < n → body j s = .ok (g s j)) : forLoop 0 n s body = .ok ((List.range n).foldl g s) := by
  rw [forLoop_foldl g 0 n s fun j s _ h2 => h j s h2, List.range_eq_range']; rfl

theorem forLoop_congr {σ : Type _} {b1 b2 : Nat → σ → Res σ} (lo hi : Nat) (s : σ)
    (h : ∀ j s, lo ≤ j → j < hi → b1 j s = b2 j s) : forLoop lo hi s b1 = forLoop lo hi s b2 := by
  have : ∀ (k i : Nat) (s : σ), (∀ j s, i ≤ j → j < i + k → b1 j s = b2 j s) → forFrom i k s b1 = forFrom i k s b2 := by
    intro k
    induction k with
    | zero => intros; rfl
    | succ k ih =>
      intro i s hh
      unfold forFrom
      rw [hh i s (Nat.le_refl _) (by omega)]
      congr 1; funext s'
      exact ih (i + 1) s' fun j s h1 h2 => hh j s (by omega) (by omega)
  exact this _ _ _ fun j s h1 h2 => h j s h1 (by omega)

/-- Updating a buffer element by element; elements outside the updated part stay as they are. -/
theorem loop_update' {β : Type} {n s : Nat} {m0 : Buf β} (F : Nat → β) (body : Nat → Buf β → Res (Buf β))
    (hb : ∀ c (m : Buf β), c < n → m.size = m0.size → (∀ p, (p < s ∨ s + c ≤ p) → m.data p = m0.data p) →
      body c m = .ok (m.put (s + c) (F c))) :
    Res.Ok (forLoop 0 n m0 body) (fun m => m.size = m0.size ∧ (∀ c, c < n → m.data (s + c) = F c) ∧
      ∀ p, (p < s ∨ s + n ≤ p) → m.data p = m0.data p) := by
  refine forLoop_post (fun i m => m.size = m0.size ∧ (∀ c, c < i → m.data (s + c) = F c) ∧
      ∀ p, (p < s ∨ s + i ≤ p) → m.data p = m0.data p) 0 n m0 (Nat.zero_le _)
    ⟨rfl, fun c hc => by omega, fun p _ => rfl⟩ ?_ (fun m h => h)
  rintro i m _ hi ⟨h1, h2, h3⟩
  refine ⟨_, hb i m hi h1 h3, h1, ?_, ?_⟩
  · intro c hc
    rw [Buf.put_data]
    by_cases e : s + c = s + i
    · rw [if_pos e]; have : c = i := by omega
      rw [this]
    · rw [if_neg e]; exact h2 c (by omega)
  · intro p hp
    rw [Buf.put_data, if_neg (by omega)]
    exact h3 p (by omega)

/-- Updating a buffer element by element. -/
theorem loop_update {β : Type} {n s : Nat} {m0 : Buf β} (F : Nat → β) (body : Nat → Buf β → Res (Buf β))
    (hb : ∀ c (m : Buf β), c < n → m.size = m0.size → m.data (s + c) = m0.data (s + c) → body c m = .ok (m.put (s + c) (F c))) :
    Res.Ok (forLoop 0 n m0 body) (fun m => m.size = m0.size ∧ (∀ c, c < n → m.data (s + c) = F c) ∧
      ∀ p, (p < s ∨ s + n ≤ p) → m.data p = m0.data p) :=
  loop_update' F body fun c m h1 h2 h3 => hb c m h1 h2 (h3 _ (by omega))

/-! ### `aggAllArray` -/

/-- The `n` values from position `p`. -/
def seg (v : Buf α) (p n : Nat) : List α := (List.range n).map fun i => v.data (p + i)

theorem seg_length (v : Buf α) (p n : Nat) : (seg v p n).length = n := by simp [seg]

theorem seg_succ (v : Buf α) (p n : Nat) : seg v p (n + 1) = seg v p n ++ [v.data (p + n)] := by
  simp [seg, List.range_succ]

theorem seg_add (v : Buf α) (p n m : Nat) : seg v p (n + m) = seg v p n ++ seg v (p + n) m := by
  induction m with
  | zero => simp [seg]
  | succ m ih => rw [← Nat.add_assoc, seg_succ, ih, seg_succ]; simp [Nat.add_assoc]

theorem perm_insert4 {l0 l1 l2 l3 l : List ρ} (h : (l0 ++ l1 ++ (l2 ++ l3)).Perm l) (a b c d : ρ) :
    ((l0 ++ [a]) ++ (l1 ++ [b]) ++ ((l2 ++ [c]) ++ (l3 ++ [d]))).Perm (l ++ [a, b, c, d]) := by
  refine List.Perm.trans ?_ (h.append_right _)
  classical
  rw [List.perm_iff_count]
  intro x
  simp only [List.count_append, List.count_cons, List.count_nil]
  omega

/-- `Conv.Exact` for one operation and neutral element. -/
def ExactOn (A : VT ρ) (K : Conv α ρ) (o : BinOp) (e : ρ) : Prop := ∃ P : ρ → Prop, P A.zero ∧ P e ∧ (∀ v, P (K.cast v)) ∧
  ∀ a b, P a → P b → P (A.ap o a b) ∧ K.bin o a b = .ok (A.ap o a b)

theorem Combines.pred {f : ρ → ρ → ρ} {P : ρ → Prop} (hP : ∀ a b, P a → P b → P (f a b)) {l : List ρ} {v : ρ} (c : Combines f l v) :
    (∀ x ∈ l, P x) → P v := by
  induction c with
  | one x => exact fun h => h x (by simp)
  | node _ _ ih1 ih2 => exact fun h => hP _ _ (ih1 fun x hx => h x (by simp [hx])) (ih2 fun x hx => h x (by simp [hx]))
  | perm hp _ ih => exact fun h => ih fun x hx => h x (hp.mem_iff.1 hx)

/-- Combining two combinations of admissible values. -/
theorem ExactOn.bin {A : VT ρ} {K : Conv α ρ} {o : BinOp} {e : ρ} (h : ExactOn A K o e) {l l' : List ρ} {a b : ρ}
    (c : Combines (A.ap o) l a) (c' : Combines (A.ap o) l' b)
    (hl : ∀ x ∈ l ++ l', x = A.zero ∨ x = e ∨ ∃ v, x = K.cast v) : K.bin o a b = .ok (A.ap o a b) := by
  obtain ⟨P, h0, he, hc, hP⟩ := h
  have hin : ∀ x ∈ l ++ l', P x := by
    intro x hx
    rcases hl x hx with rfl | rfl | ⟨v, rfl⟩
    · exact h0
    · exact he
    · exact hc v
  exact (hP a b (c.pred (fun a b h1 h2 => (hP a b h1 h2).1) fun x hx => hin x (by simp [hx]))
    (c'.pred (fun a b h1 h2 => (hP a b h1 h2).1) fun x hx => hin x (by simp [hx]))).2

theorem round4_ok {A : VT ρ} {K : Conv α ρ} {o : BinOp} {v : Buf α} {p k : Nat} (s : ρ × ρ × ρ × ρ)
    (hv : p + (4 * k + 3) < v.size) (h0 : ∀ w, K.bin o s.1 (K.cast w) = .ok (A.ap o s.1 (K.cast w)))
    (h1 : ∀ w, K.bin o s.2.1 (K.cast w) = .ok (A.ap o s.2.1 (K.cast w)))
    (h2 : ∀ w, K.bin o s.2.2.1 (K.cast w) = .ok (A.ap o s.2.2.1 (K.cast w)))
    (h3 : ∀ w, K.bin o s.2.2.2 (K.cast w) = .ok (A.ap o s.2.2.2 (K.cast w))) : round4 K o v p k s = .ok
      (A.ap o s.1 (K.cast (v.data (p + 4 * k))), A.ap o s.2.1 (K.cast (v.data (p + (4 * k + 1)))),
       A.ap o s.2.2.1 (K.cast (v.data (p + (4 * k + 2)))), A.ap o s.2.2.2 (K.cast (v.data (p + (4 * k + 3))))) := by
  unfold round4
  rw [Buf.read_eq (by omega), Buf.read_eq (by omega), Buf.read_eq (by omega), Buf.read_eq (by omega)]
  simp only [Res.ok_bind, h0, h1, h2, h3]

theorem adm_seg {A : VT ρ} {K : Conv α ρ} {e : ρ} {v : Buf α} {p n k : Nat} {x : ρ}
    (h : x ∈ List.replicate k e ++ (seg v p n).map K.cast) : x = A.zero ∨ x = e ∨ ∃ v, x = K.cast v := by
  rw [List.mem_append] at h
  rcases h with h | h
  · exact .inr (.inl (List.eq_of_mem_replicate h))
  · obtain ⟨w, _, rfl⟩ := List.mem_map.1 h
    exact .inr (.inr ⟨w, rfl⟩)

theorem aggNonEmpty_ok {A : VT ρ} {K : Conv α ρ} {o : BinOp} {v : Buf α} {p n : Nat} {e : ρ} (hK : ExactOn A K o e)
    (hv : p + n ≤ v.size) : Res.Ok (aggNonEmpty K o v p n e) (fun w =>
      Combines (A.ap o) ((seg v p n).map K.cast ++ List.replicate 4 e) w) := by
  unfold aggNonEmpty
  have h4 : n / 4 * 4 + n % 4 = n := by omega
  have l1 : Res.Ok (forLoop 0 (n / 4) (e, e, e, e) fun k s => round4 K o v p k s) (fun s =>
      ∃ l0 l1 l2 l3, Combines (A.ap o) l0 s.1 ∧ Combines (A.ap o) l1 s.2.1 ∧ Combines (A.ap o) l2 s.2.2.1 ∧
        Combines (A.ap o) l3 s.2.2.2 ∧
        (l0 ++ l1 ++ (l2 ++ l3)).Perm (List.replicate 4 e ++ (seg v p (n / 4 * 4)).map K.cast)) := by
    refine forLoop_post (fun k s => ∃ l0 l1 l2 l3, Combines (A.ap o) l0 s.1 ∧ Combines (A.ap o) l1 s.2.1 ∧
        Combines (A.ap o) l2 s.2.2.1 ∧ Combines (A.ap o) l3 s.2.2.2 ∧
        (l0 ++ l1 ++ (l2 ++ l3)).Perm (List.replicate 4 e ++ (seg v p (k * 4)).map K.cast))
      0 (n / 4) _ (Nat.zero_le _) ?_ ?_ (fun s h => h)
    · exact ⟨[e], [e], [e], [e], .one e, .one e, .one e, .one e, by simp [seg, List.replicate]⟩
    · rintro k s _ hk ⟨l0, l1, l2, l3, c0, c1, c2, c3, hp⟩
      have adm : ∀ x, x ∈ l0 ++ l1 ++ (l2 ++ l3) → x = A.zero ∨ x = e ∨ ∃ v, x = K.cast v :=
        fun x hx => adm_seg (hp.mem_iff.1 hx)
      have step : ∀ {l : List ρ} {a : ρ}, Combines (A.ap o) l a → (∀ x ∈ l, x ∈ l0 ++ l1 ++ (l2 ++ l3)) → ∀ w,
          K.bin o a (K.cast w) = .ok (A.ap o a (K.cast w)) := by
        intro l a c hl w
        refine hK.bin c (.one _) fun x hx => ?_
        rw [List.mem_append, List.mem_singleton] at hx
        rcases hx with hx | rfl
        · exact adm x (hl x hx)
        · exact .inr (.inr ⟨w, rfl⟩)
      refine ⟨_, round4_ok s (by omega) (step c0 (by simp +contextual)) (step c1 (by simp +contextual)) (step c2 (by simp +contextual))
        (step c3 (by simp +contextual)), _, _, _, _, c0.node (.one _), c1.node (.one _), c2.node (.one _), c3.node (.one _), ?_⟩
      have := perm_insert4 hp (K.cast (v.data (p + 4 * k))) (K.cast (v.data (p + (4 * k + 1))))
        (K.cast (v.data (p + (4 * k + 2)))) (K.cast (v.data (p + (4 * k + 3))))
      refine this.trans ?_
      have e4 : (k + 1) * 4 = k * 4 + 1 + 1 + 1 + 1 := by omega
      rw [e4, seg_succ, seg_succ, seg_succ, seg_succ]
      have ek : 4 * k = k * 4 := by omega
      rw [ek]
      simp [Nat.add_assoc]
  refine l1.bind ?_
  rintro s ⟨l0, l1, l2, l3, c0, c1, c2, c3, hp⟩
  have adm : ∀ x, x ∈ l0 ++ l1 ++ (l2 ++ l3) → x = A.zero ∨ x = e ∨ ∃ v, x = K.cast v :=
    fun x hx => adm_seg (hp.mem_iff.1 hx)
  rw [hK.bin c0 c1 (fun x hx => adm x (List.mem_append_left _ hx)), hK.bin c2 c3 (fun x hx => adm x (List.mem_append_right _ hx))]
  simp only [Res.ok_bind]
  rw [hK.bin (c0.node c1) (c2.node c3) adm]
  simp only [Res.ok_bind]
  have c := ((c0.node c1).node (c2.node c3)).perm hp
  refine forLoop_post (fun i a => Combines (A.ap o) (List.replicate 4 e ++ (seg v p (n / 4 * 4 + i)).map K.cast) a) 0 (n % 4) _
    (Nat.zero_le _) c ?_ ?_
  · intro i a _ hi ca
    rw [Buf.read_eq (by omega)]
    simp only [Res.ok_bind]
    refine ⟨_, hK.bin ca (.one _) ?_, ?_⟩
    · intro x hx
      rw [List.mem_append, List.mem_singleton] at hx
      rcases hx with hx | rfl
      · exact adm_seg hx
      · exact .inr (.inr ⟨_, rfl⟩)
    · have := ca.node (.one (K.cast (v.data (p + (n / 4 * 4 + i)))))
      rw [← Nat.add_assoc, seg_succ]
      simpa using this
  · intro a ca
    rw [h4] at ca
    exact ca.perm List.perm_append_comm

/-- The value of `aggAllArray`, without any law of arithmetic. -/
theorem aggAllArray_ok {A : VT ρ} {K : Conv α ρ} {o : BinOp} {v : Buf α} {p n : Nat} {z : Bool} {e : ρ} (hK : ExactOn A K o e)
    (hv : n = 0 ∨ p + n ≤ v.size) : Res.Ok (aggAllArray A K o v p n z e) (fun w => ∃ k,
      Combines (A.ap o) ((seg v p n).map K.cast ++ List.replicate (k + 1) e ++ (if z then [A.zero] else [])) w) := by
  unfold aggAllArray
  have h1 : Res.Ok (aggCore K o v p n e) (fun w => ∃ k, Combines (A.ap o) ((seg v p n).map K.cast ++ List.replicate (k + 1) e) w) := by
    unfold aggCore
    by_cases hn : n = 0
    · rw [if_neg (by simpa using hn)]
      exact ⟨e, rfl, 0, by subst hn; simpa [seg] using Combines.one e⟩
    · rw [if_pos hn]
      exact (aggNonEmpty_ok hK (by omega)).mono fun w h => ⟨3, h⟩
  refine h1.bind ?_
  rintro a ⟨k, c⟩
  cases z with
  | false => exact ⟨a, rfl, k, by simpa using c⟩
  | true =>
    simp only [if_true]
    refine ⟨_, hK.bin c (.one _) ?_, k, c.node (.one _)⟩
    intro x hx
    rw [List.mem_append, List.mem_singleton] at hx
    rcases hx with hx | rfl
    · exact adm_seg ((List.perm_append_comm.mem_iff).1 hx)
    · exact .inl rfl

/-- The value of `aggAllArray` for an associative and commutative operation. -/
theorem aggAllArray_eq {A : VT ρ} {K : Conv α ρ} {o : BinOp} {v : Buf α} {p n : Nat} {z : Bool} {e : ρ} (hK : ExactOn A K o e)
    (hv : n = 0 ∨ p + n ≤ v.size) (hm : CMon (A.ap o) e) : aggAllArray A K o v p n z e =
      .ok (fold A o e ((seg v p n).map K.cast ++ (if z then [A.zero] else []))) := by
  obtain ⟨w, hw, k, c⟩ := aggAllArray_ok (z := z) (e := e) (o := o) hK hv
  rw [hw, hm.combines c]
  unfold fold
  rw [hm.foldr_append, hm.foldr_append, hm.foldr_append, hm.foldr_replicate, hm.unit]

end Verif.Agg

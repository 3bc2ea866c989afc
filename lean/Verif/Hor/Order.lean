/-
  Execution of a block in terms of a valuation of all operations: the order matters only in that definitions come before uses.
-/
import Verif.Hor.Body

namespace Verif.Hor
variable {β : Type}

def ids (B : List (Op β)) : List Nat := B.map (·.id)

/-- Definitions come before uses; `D` are the operations in front of the block. -/
def OrderedFrom : List Nat → List (Op β) → Prop
  | _, [] => True
  | D, o :: B => (∀ i j, Val.res i j ∈ o.needs → i ∈ D) ∧ OrderedFrom (D ++ [o.id]) B

theorem OrderedFrom.mono : ∀ {B : List (Op β)} {D D' : List Nat}, OrderedFrom D B → (∀ i ∈ D, i ∈ D') → OrderedFrom D' B
  | [], _, _, _, _ => trivial
  | o :: B, D, D', ⟨h1, h2⟩, h => by
    refine ⟨fun i j hi => h i (h1 i j hi), OrderedFrom.mono h2 fun i hi => ?_⟩
    rcases List.mem_append.1 hi with hi | hi
    · exact List.mem_append_left _ (h i hi)
    · exact List.mem_append_right _ hi

theorem ordered_append : ∀ {X Y : List (Op β)} {D : List Nat}, OrderedFrom D (X ++ Y) ↔ OrderedFrom D X ∧ OrderedFrom (D ++ ids X) Y
  | [], Y, D => by simp [OrderedFrom, ids]
  | o :: X, Y, D => by
    simp only [List.cons_append, OrderedFrom, ordered_append, ids, List.map_cons, List.append_assoc, and_assoc, List.nil_append]

/-- Dropping operations of a block that the others do not need or that are in front anyway. -/
theorem OrderedFrom.filter {k : Op β → Bool} {Bad : Nat → Prop} : ∀ {X : List (Op β)} {D D' : List Nat}, OrderedFrom D X →
    (∀ i ∈ D, i ∈ D' ∨ Bad i) → (∀ o ∈ X, k o = false → Bad o.id ∨ o.id ∈ D') →
    (∀ o ∈ X, k o = true → ∀ i j, Val.res i j ∈ o.needs → ¬ Bad i) → OrderedFrom D' (X.filter k)
  | [], _, _, _, _, _, _ => trivial
  | o :: X, D, D', ⟨h1, h2⟩, hD, hb, hk => by
    cases ho : k o with
    | true =>
      rw [List.filter_cons_of_pos ho]
      refine ⟨fun i j hi => ?_, OrderedFrom.filter h2 (fun i hi => ?_) (fun x hx hx' => ?_) fun x hx => hk x (by simp [hx])⟩
      · rcases hD i (h1 i j hi) with h | h
        · exact h
        · exact absurd h (hk o (by simp) ho i j hi)
      · rcases List.mem_append.1 hi with hi | hi
        · rcases hD i hi with h | h
          · exact .inl (List.mem_append_left _ h)
          · exact .inr h
        · exact .inl (List.mem_append_right _ hi)
      · rcases hb x (by simp [hx]) hx' with h | h
        · exact .inl h
        · exact .inr (List.mem_append_left _ h)
    | false =>
      rw [List.filter_cons_of_neg (by simp [ho])]
      refine OrderedFrom.filter h2 (fun i hi => ?_) (fun x hx hx' => hb x (by simp [hx]) hx') fun x hx => hk x (by simp [hx])
      rcases List.mem_append.1 hi with hi | hi
      · exact hD i hi
      · rw [List.mem_singleton.1 hi]
        exact (hb o (by simp) ho).symm

theorem look_congr {as : List β} {V W : Env β} {v : Val} (h : ∀ i j, v = .res i j → V i = W i) : look as V v = look as W v := by
  cases v with
  | arg k => rfl
  | res i j => simp only [look, h i j rfl]

theorem Op.run_congr {E : Engine β} {as : List β} {V W : Env β} {o : Op β} (h : ∀ i j, Val.res i j ∈ o.needs → V i = W i) :
    o.run E as V = o.run E as W := by
  cases o with
  | plain i xs cs f =>
    simp only [Op.run]
    rw [mapO_ext fun v hv => look_congr fun i j e => h i j (by subst e; exact hv)]
  | pipe i p =>
    simp only [Op.run]
    rw [mapO_ext (l := p.ins) fun v hv => look_congr fun i j e => h i j (by subst e; simp [Op.needs, hv]),
      mapO_ext (l := p.outRows) fun v hv => look_congr fun i j e => h i j (by subst e; simp [Op.needs, hv]),
      mapO_ext (l := p.outCols) fun v hv => look_congr fun i j e => h i j (by subst e; simp [Op.needs, hv])]

theorem Op.event_congr {as : List β} {V W : Env β} {o : Op β} (h : ∀ i j, Val.res i j ∈ o.needs → V i = W i) : o.event as V = o.event as W := by
  cases o with
  | plain i xs cs f =>
    simp only [Op.event]
    rw [mapO_ext fun v hv => look_congr fun i j e => h i j (by subst e; exact hv)]
  | pipe i p => rfl

theorem Op.run_defined {E : Engine β} {as : List β} {V : Env β} {o : Op β} {rs : List β} (h : o.run E as V = some rs) {i j : Nat}
    (hn : Val.res i j ∈ o.needs) : ∃ qs, V i = some qs ∧ j < qs.length := by
  have key : ∃ y, look as V (.res i j) = some y := by
    cases o with
    | plain k xs cs f =>
      simp only [Op.run, Option.map_eq_some_iff] at h
      obtain ⟨ys, h, _⟩ := h
      exact mapO_mem h hn
    | pipe k p =>
      simp only [Op.run, Option.bind_eq_bind, Option.bind_eq_some_iff] at h
      obtain ⟨ys, h1, zs, h2, ws, h3, _⟩ := h
      simp only [Op.needs, List.mem_append] at hn
      rcases hn with (hn | hn) | hn
      · exact mapO_mem h1 hn
      · exact mapO_mem h2 hn
      · exact mapO_mem h3 hn
  obtain ⟨y, hy⟩ := key
  simp only [look, Option.bind_eq_some_iff] at hy
  obtain ⟨qs, h1, h2⟩ := hy
  exact ⟨qs, h1, (List.getElem?_eq_some_iff.1 h2).1⟩

/-- `V` is a solution of the equations of the block. -/
def Sat (E : Engine β) (as : List β) (V : Env β) (B : List (Op β)) : Prop := ∀ o ∈ B, ∃ rs, o.run E as V = some rs ∧ V o.id = some rs

theorem exec_sat {E : Engine β} {as : List β} : ∀ {B : List (Op β)} {D : List Nat} {V W : Env β} {tr : List (Nat × List β)},
    exec E as B V = some (W, tr) → (D ++ ids B).Nodup → (∀ i, V i ≠ none → i ∈ D) →
      OrderedFrom D B ∧ (∀ i ∈ D, W i = V i) ∧ Sat E as W B ∧ tr = B.flatMap (·.event as W) ∧ ∀ i, W i ≠ none → i ∈ D ++ ids B
  | [], D, V, W, tr, h, _, hd => by
    simp only [exec, Option.some.injEq, Prod.mk.injEq] at h
    obtain ⟨rfl, rfl⟩ := h
    exact ⟨trivial, fun _ _ => rfl, fun _ h => by simp at h, rfl, fun i hi => by simpa [ids] using hd i hi⟩
  | o :: B, D, V, W, tr, h, hn, hd => by
    simp only [exec, Option.bind_eq_bind, Option.bind_eq_some_iff] at h
    obtain ⟨rs, h1, ⟨W', tr'⟩, h2, h3⟩ := h
    simp only [Option.some.injEq, Prod.mk.injEq] at h3
    obtain ⟨rfl, rfl⟩ := h3
    have hoD : o.id ∉ D := fun hm => (List.nodup_append.1 hn).2.2 _ hm o.id (by simp [ids]) rfl
    obtain ⟨e1, e2, e3, e4, e5⟩ := exec_sat (D := D ++ [o.id]) h2 (by simpa [ids] using hn) (fun i hi => by
      by_cases he : i = o.id
      · simp [he]
      · exact List.mem_append_left _ (hd i (by simpa [Env.put, he] using hi)))
    have hneed : ∀ i j, Val.res i j ∈ o.needs → i ∈ D := fun i j hi => by
      obtain ⟨qs, hq, _⟩ := Op.run_defined h1 hi
      exact hd i (by simp [hq])
    have hV : ∀ i ∈ D, W' i = V i := fun i hi => by
      rw [e2 i (List.mem_append_left _ hi), Env.put, if_neg (fun he : i = o.id => hoD (he ▸ hi))]
    have hc : ∀ i j, Val.res i j ∈ o.needs → V i = W' i := fun i j hi => (hV i (hneed i j hi)).symm
    refine ⟨⟨hneed, e1⟩, hV, ?_, ?_, fun i hi => by simpa [ids] using e5 i hi⟩
    · intro x hx
      rcases List.mem_cons.1 hx with rfl | hx
      · exact ⟨rs, by rw [← Op.run_congr hc, h1], by rw [e2 _ (by simp)]; simp [Env.put]⟩
      · exact e3 x hx
    · rw [List.flatMap_cons, ← e4, Op.event_congr hc]

theorem sat_exec {E : Engine β} {as : List β} {W : Env β} : ∀ {B : List (Op β)} {D : List Nat} {V : Env β},
    OrderedFrom D B → (D ++ ids B).Nodup → (∀ i ∈ D, V i = W i) → Sat E as W B →
      ∃ W', exec E as B V = some (W', B.flatMap (·.event as W)) ∧ ∀ i ∈ D ++ ids B, W' i = W i
  | [], D, V, _, _, hv, _ => ⟨V, rfl, fun i hi => hv i (by simpa [ids] using hi)⟩
  | o :: B, D, V, ⟨h1, h2⟩, hn, hv, hs => by
    obtain ⟨rs, g1, g2⟩ := hs o (by simp)
    have hoD : o.id ∉ D := fun hm => (List.nodup_append.1 hn).2.2 _ hm o.id (by simp [ids]) rfl
    have hc : ∀ i j, Val.res i j ∈ o.needs → V i = W i := fun i j hi => hv i (h1 i j hi)
    obtain ⟨W', e1, e2⟩ := sat_exec (V := V.put o.id rs) h2 (by simpa [ids] using hn) (fun i hi => by
      by_cases he : i = o.id
      · simp [Env.put, he, g2]
      · rcases List.mem_append.1 hi with hi | hi
        · simp [Env.put, he, hv i hi]
        · exact absurd (List.mem_singleton.1 hi) he) (fun x hx => hs x (by simp [hx]))
    refine ⟨W', ?_, fun i hi => e2 i (by simpa [ids] using hi)⟩
    rw [exec, Op.run_congr hc, g1]
    simp only [Option.bind_eq_bind, Option.bind_some, e1]
    rw [List.flatMap_cons, Op.event_congr hc]

end Verif.Hor

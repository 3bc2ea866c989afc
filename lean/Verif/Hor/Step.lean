/-
  The block after one round of fusion.
-/
import Verif.Hor.Order
import Verif.Hor.Pairs

namespace Verif.Hor
variable {β : Type}

theorem ids_append (X Y : List (Op β)) : ids (X ++ Y) = ids X ++ ids Y := List.map_append
theorem ids_cons (o : Op β) (Y : List (Op β)) : ids (o :: Y) = o.id :: ids Y := rfl

theorem mem_ids {i : Nat} {X : List (Op β)} : i ∈ ids X ↔ ∃ o ∈ X, o.id = i := List.mem_map

theorem remove_none {i : Nat} {X : List (Op β)} (h : i ∉ ids X) : remove i X = X := by
  refine List.filter_eq_self.2 fun o ho => ?_
  simp only [bne_iff_ne, ne_eq]
  exact fun he => h (mem_ids.2 ⟨o, ho, he⟩)

theorem remove_append (i : Nat) (X Y : List (Op β)) : remove i (X ++ Y) = remove i X ++ remove i Y := List.filter_append ..

theorem remove_mid {o : Op β} {X Y : List (Op β)} (h : (ids (X ++ o :: Y)).Nodup) : remove o.id (X ++ o :: Y) = X ++ Y := by
  rw [ids_append, ids_cons] at h
  have h1 := List.nodup_append.1 h
  rw [remove_append, remove_none (fun hm => h1.2.2 _ hm o.id (by simp) rfl), remove, List.filter_cons_of_neg (by simp)]
  rw [show List.filter (fun x : Op β => x.id != o.id) Y = remove o.id Y from rfl, remove_none (List.nodup_cons.1 h1.2.1).1]

theorem insBefore_eq {o Q : Op β} : ∀ {X Y : List (Op β)}, Q.id ∉ ids X → insBefore o Q.id (X ++ Q :: Y) = X ++ o :: Q :: Y
  | [], Y, _ => by simp [insBefore]
  | x :: X, Y, h => by
    rw [ids_cons, List.mem_cons, not_or] at h
    rw [List.cons_append, insBefore, if_neg (Ne.symm h.1), insBefore_eq h.2, List.cons_append]

theorem insAfter_eq {o Q : Op β} : ∀ {X Y : List (Op β)}, Q.id ∉ ids X → insAfter o Q.id (X ++ Q :: Y) = X ++ Q :: o :: Y
  | [], Y, _ => by simp [insAfter]
  | x :: X, Y, h => by
    rw [ids_cons, List.mem_cons, not_or] at h
    rw [List.cons_append, insAfter, if_neg (Ne.symm h.1), insAfter_eq h.2, List.cons_append]

theorem foldBefore {Q : Op β} (k : Op β → Bool) : ∀ (todo H kept T : List (Op β)), (ids (H ++ Q :: (kept ++ (todo ++ T)))).Nodup →
    (todo.filter k).foldl (fun C o => moveBefore o Q.id C) (H ++ Q :: (kept ++ (todo ++ T))) =
      H ++ (todo.filter k ++ Q :: (kept ++ (todo.filter (fun o => !k o) ++ T)))
  | [], H, kept, T, _ => by simp
  | o :: todo, H, kept, T, hn => by
    cases hk : k o with
    | false =>
      have := foldBefore k todo H (kept ++ [o]) T (by simpa using hn)
      rw [List.filter_cons_of_neg (by simp [hk]), List.filter_cons_of_pos (by simp [hk])]
      simpa using this
    | true =>
      rw [List.filter_cons_of_pos hk, List.filter_cons_of_neg (by simp [hk]), List.foldl_cons]
      have e0 : H ++ Q :: (kept ++ (o :: todo ++ T)) = (H ++ Q :: kept) ++ o :: (todo ++ T) := by simp
      have hn' := hn
      rw [e0] at hn'
      have hQ : o.id ≠ Q.id := fun he => by
        rw [ids_append, ids_append] at hn'
        exact (List.nodup_append.1 hn').2.2 Q.id (by simp [ids_cons]) o.id (by simp [ids_cons]) he.symm
      have hQH : Q.id ∉ ids H := fun hm => by
        rw [ids_append] at hn
        exact (List.nodup_append.1 hn).2.2 _ hm Q.id (by simp [ids_cons]) rfl
      have e1 : moveBefore o Q.id (H ++ Q :: (kept ++ (o :: todo ++ T))) = (H ++ [o]) ++ Q :: (kept ++ (todo ++ T)) := by
        rw [e0, moveBefore, if_neg hQ, remove_mid hn']
        rw [List.append_assoc, List.cons_append, insBefore_eq hQH]
        simp
      rw [e1, foldBefore k todo (H ++ [o]) kept T ?_]
      · simp
      · refine (List.Perm.nodup_iff ?_).1 hn
        refine List.Perm.map _ ?_
        rw [e0]
        have : (H ++ [o] ++ Q :: (kept ++ (todo ++ T))) = H ++ o :: (Q :: kept ++ (todo ++ T)) := by simp
        rw [this]
        have h2 : (H ++ Q :: kept) ++ o :: (todo ++ T) = H ++ (Q :: kept ++ o :: (todo ++ T)) := by simp
        rw [h2]
        exact List.Perm.append_left _ List.perm_middle

theorem movesAfter_id : ∀ (os : List (Op β)) (x : Op β) (H T : List (Op β)), (ids (H ++ x :: (os ++ T))).Nodup →
    movesAfter os x.id (H ++ x :: (os ++ T)) = H ++ x :: (os ++ T)
  | [], x, H, T, _ => rfl
  | o :: os, x, H, T, hn => by
    have e0 : H ++ x :: (o :: os ++ T) = (H ++ [x]) ++ o :: (os ++ T) := by simp
    have hn' := hn
    rw [e0] at hn'
    have hx : o.id ≠ x.id := fun he => by
      rw [ids_append, ids_append] at hn'
      exact (List.nodup_append.1 hn').2.2 x.id (by simp [ids_cons]) o.id (by simp [ids_cons]) he.symm
    have hxH : x.id ∉ ids H := fun hm => by
      rw [ids_append] at hn
      exact (List.nodup_append.1 hn).2.2 _ hm x.id (by simp [ids_cons]) rfl
    have e1 : moveAfter o x.id (H ++ x :: (o :: os ++ T)) = (H ++ [x]) ++ o :: (os ++ T) := by
      rw [e0, moveAfter, if_neg hx, remove_mid hn']
      have : H ++ [x] ++ (os ++ T) = H ++ x :: (os ++ T) := by simp
      rw [this, insAfter_eq hxH]
      simp
    rw [movesAfter, e1, movesAfter_id os o (H ++ [x]) T hn']
    simp

theorem dropWhile_id {A : Op β} : ∀ {pre R : List (Op β)}, A.id ∉ ids pre → (pre ++ A :: R).dropWhile (fun o => o.id != A.id) = A :: R
  | [], R, _ => by simp
  | x :: pre, R, h => by
    rw [ids_cons, List.mem_cons, not_or] at h
    have : (x.id != A.id) = true := by simpa using Ne.symm h.1
    rw [List.cons_append, List.dropWhile_cons_of_pos (p := fun o : Op β => o.id != A.id) this]
    exact dropWhile_id h.2

theorem takeWhile_id {A : Op β} : ∀ {pre R : List (Op β)}, A.id ∉ ids pre → (pre ++ A :: R).takeWhile (fun o => o.id != A.id) = pre
  | [], R, _ => by simp
  | x :: pre, R, h => by
    rw [ids_cons, List.mem_cons, not_or] at h
    have : (x.id != A.id) = true := by simpa using Ne.symm h.1
    rw [List.cons_append, List.takeWhile_cons_of_pos (p := fun o : Op β => o.id != A.id) this, takeWhile_id h.2]

/-- The interleaved operations are moved out of the way if the operation right after the first pipeline depends on it. -/
theorem interleaved_eq {A C Q : Op β} {pre mid post : List (Op β)} (hn : (ids (pre ++ A :: (Q :: mid ++ C :: post))).Nodup)
    (hq : opDep (pre ++ A :: (Q :: mid ++ C :: post)) Q A.id = true) :
    interleaved (pre ++ A :: (Q :: mid ++ C :: post)) A.id C.id =
      some (pre ++ A :: ((Q :: mid).filter (fun o => !opDep (pre ++ A :: (Q :: mid ++ C :: post)) o A.id) ++
        ((Q :: mid).filter (fun o => opDep (pre ++ A :: (Q :: mid ++ C :: post)) o A.id) ++ C :: post)), Q.id) := by
  obtain ⟨B, hB⟩ : ∃ B, B = pre ++ A :: (Q :: mid ++ C :: post) := ⟨_, rfl⟩
  rw [← hB] at hq ⊢
  have h1 := hn
  rw [ids_append, ids_cons, ids_append] at h1
  have h2 := List.nodup_append.1 h1
  have h3 := List.nodup_cons.1 h2.2.1
  have h4 := List.nodup_append.1 h3.2
  have hA : A.id ∉ ids pre := fun hm => h2.2.2 _ hm A.id (by simp) rfl
  have hC : C.id ∉ ids (Q :: mid) := fun hm => h4.2.2 _ hm C.id (by simp [ids_cons]) rfl
  have e1 : (B.dropWhile fun o => o.id != A.id).drop 1 = Q :: mid ++ C :: post := by rw [hB, dropWhile_id hA]; rfl
  have e2 : (Q :: mid ++ C :: post).takeWhile (fun o => o.id != C.id) = Q :: mid := takeWhile_id hC
  have e3 : (Q :: mid ++ C :: post).drop (Q :: mid).length = C :: post := List.drop_left
  unfold interleaved
  simp only [e1, e2, e3]
  rw [List.cons_append]
  simp only [Option.some.injEq, Prod.mk.injEq, and_true]
  rw [List.filter_cons_of_neg (p := fun o => !opDep B o A.id) (by simp [hq]), List.filter_cons_of_pos (p := fun o => opDep B o A.id) hq]
  have e4 := foldBefore (Q := Q) (fun o => !opDep B o A.id) mid (pre ++ [A]) [] (C :: post) (by simpa using hn)
  have e5 : pre ++ [A] ++ Q :: ([] ++ (mid ++ C :: post)) = B := by rw [hB]; simp
  rw [e5] at e4
  rw [e4]
  simp only [List.nil_append, Bool.not_not]
  have e6 := movesAfter_id (mid.filter fun o => opDep B o A.id) Q (pre ++ [A] ++ mid.filter fun o => !opDep B o A.id) (C :: post) (by
    refine (List.Perm.nodup_iff (List.Perm.map _ ?_)).1 hn
    have hp := List.filter_append_perm (fun o => !opDep B o A.id) mid
    simp only [Bool.not_not] at hp
    rw [List.append_assoc, List.append_assoc, List.singleton_append]
    refine List.Perm.append_left _ (List.Perm.cons _ ?_)
    rw [List.cons_append]
    refine (List.Perm.cons _ ((List.Perm.append_right _ hp.symm))).trans ?_
    rw [List.append_assoc]
    exact List.perm_middle.symm)
  rw [movesAfter, moveAfter, if_pos rfl]
  simp only [List.append_assoc, List.singleton_append, List.nil_append, List.cons_append] at e6 ⊢
  exact e6

theorem Op.rename_id (a na b nb n : Nat) (o : Op β) : (o.rename a na b nb n).id = o.id := by cases o <;> rfl

theorem ids_rename (a na b nb n : Nat) (X : List (Op β)) : ids (X.map (·.rename a na b nb n)) = ids X := by
  simp [ids, Op.rename_id]

theorem pipes_append : ∀ (X Y : List (Op β)), pipes (X ++ Y) = pipes X ++ pipes Y
  | [], Y => rfl
  | .plain _ _ _ _ :: X, Y => by rw [List.cons_append, pipes, pipes, pipes_append X Y]
  | .pipe _ _ :: X, Y => by rw [List.cons_append, pipes, pipes, pipes_append X Y, List.cons_append]

theorem mem_pipes {i : Nat} {p : Pipe β} : ∀ {B : List (Op β)}, (i, p) ∈ pipes B ↔ .pipe i p ∈ B
  | [] => by simp [pipes]
  | .plain _ _ _ _ :: B => by simp [pipes, mem_pipes (B := B)]
  | .pipe _ _ :: B => by simp [pipes, mem_pipes (B := B)]

theorem op_unique {B : List (Op β)} (hn : (ids B).Nodup) {o o' : Op β} (h : o ∈ B) (h' : o' ∈ B) (he : o.id = o'.id) : o = o' := by
  induction B with
  | nil => simp at h
  | cons x B ih =>
    rw [ids_cons] at hn
    have hx := List.nodup_cons.1 hn
    rcases List.mem_cons.1 h with h1 | h1 <;> rcases List.mem_cons.1 h' with h2 | h2
    · rw [h1, h2]
    · exact absurd (mem_ids.2 ⟨o', h2, by rw [← he, h1]⟩) hx.1
    · exact absurd (mem_ids.2 ⟨o, h1, by rw [he, h2]⟩) hx.1
    · exact ih hx.2 h1 h2

theorem pipeOf_eq {B : List (Op β)} (hn : (ids B).Nodup) {i : Nat} {p : Pipe β} (h : .pipe i p ∈ B) : pipeOf B i = some p := by
  have hm := mem_pipes.2 h
  cases hf : (pipes B).find? fun x => x.1 == i with
  | none =>
    have := List.find?_eq_none.1 hf _ hm
    simp at this
  | some x =>
    have h1 := List.find?_some hf
    have h2 := List.mem_of_find?_eq_some hf
    obtain ⟨k, q⟩ := x
    have hk : k = i := by simpa using h1
    subst hk
    have := op_unique hn (mem_pipes.1 h2) h rfl
    simp only [Op.pipe.injEq, true_and] at this
    simp [pipeOf, hf, this]

theorem fresh_lt : ∀ (B : List (Op β)) (m : Nat), m ≤ B.foldl (fun m o => Nat.max m (o.id + 1)) m ∧
    ∀ o ∈ B, o.id < B.foldl (fun m o => Nat.max m (o.id + 1)) m
  | [], m => by simp
  | o :: B, m => by
    obtain ⟨h1, h2⟩ := fresh_lt B (Nat.max m (o.id + 1))
    rw [List.foldl_cons]
    refine ⟨Nat.le_trans (Nat.le_max_left ..) h1, fun x hx => ?_⟩
    rcases List.mem_cons.1 hx with rfl | hx
    · exact Nat.lt_of_lt_of_le (Nat.lt_succ_self _) (Nat.le_trans (Nat.le_max_right m _) h1)
    · exact h2 x hx

theorem fresh_not_mem (B : List (Op β)) : fresh B ∉ ids B := fun hm => by
  obtain ⟨o, ho, he⟩ := mem_ids.1 hm
  have := (fresh_lt B 0).2 o ho
  rw [he] at this
  exact Nat.lt_irrefl _ this

/-- The block after one round. -/
theorem fuseStep_eq {a b : Nat} {p p' : Pipe β} {Q : Op β} {pre mid post B : List (Op β)} (hB : B = pre ++ .pipe a p :: (Q :: mid ++ .pipe b p' :: post))
    (hn : (ids B).Nodup) (hq : opDep B Q a = true) :
    fuseStep B a b = some ((pre ++ ((Q :: mid).filter (fun o => !opDep B o a) ++ .pipe (fresh B) (mergePipe p p') ::
      ((Q :: mid).filter (fun o => opDep B o a) ++ post))).map (·.rename a p.combs.length b p'.combs.length (fresh B)), fresh B) := by
  have h0 := interleaved_eq (A := .pipe a p) (C := .pipe b p') (Q := Q) (pre := pre) (mid := mid) (post := post) (hB ▸ hn) (hB ▸ hq)
  rw [← hB] at h0
  simp only [show ∀ i (p : Pipe β), (Op.pipe i p).id = i from fun _ _ => rfl] at h0
  have ha : pipeOf B a = some p := pipeOf_eq hn (by rw [hB]; simp)
  have hb : pipeOf B b = some p' := pipeOf_eq hn (by rw [hB]; simp)
  unfold fuseStep
  simp only [h0, ha, hb, Option.bind_eq_bind, Option.bind_some, Option.some.injEq, Prod.mk.injEq, and_true]
  rw [List.filter_cons_of_pos (p := fun o => opDep B o a) hq]
  obtain ⟨bef, hbef⟩ : ∃ l, l = (Q :: mid).filter (fun o => !opDep B o a) := ⟨_, rfl⟩
  obtain ⟨aft, haft⟩ : ∃ l, l = mid.filter (fun o => opDep B o a) := ⟨_, rfl⟩
  rw [← hbef, ← haft]
  -- all operations are different
  have hperm : B.Perm (pre ++ .pipe a p :: (bef ++ (Q :: aft ++ .pipe b p' :: post))) := by
    rw [hB]
    refine List.Perm.append_left _ (List.Perm.cons _ ?_)
    have hp := List.filter_append_perm (fun o => !opDep B o a) (Q :: mid)
    simp only [Bool.not_not] at hp
    rw [List.filter_cons_of_pos (p := fun o => opDep B o a) hq, ← hbef, ← haft] at hp
    rw [← List.append_assoc]
    exact List.Perm.append_right _ hp.symm
  have hn' : (ids (pre ++ .pipe a p :: (bef ++ (Q :: aft ++ .pipe b p' :: post)))).Nodup := (hperm.map _).nodup_iff.1 hn
  have hfr : fresh B ∉ ids (pre ++ .pipe a p :: (bef ++ (Q :: aft ++ .pipe b p' :: post))) := fun hm =>
    fresh_not_mem B ((hperm.map _).mem_iff.2 hm)
  generalize fresh B = n at *
  have e1 : pre ++ .pipe a p :: (bef ++ (Q :: aft ++ .pipe b p' :: post)) = (pre ++ .pipe a p :: bef) ++ Q :: (aft ++ .pipe b p' :: post) := by simp
  rw [e1] at hn' hfr ⊢
  have hQ : Q.id ∉ ids (pre ++ .pipe a p :: bef) := fun hm => by
    rw [ids_append] at hn'
    exact (List.nodup_append.1 hn').2.2 _ hm Q.id (by simp [ids_cons]) rfl
  rw [insBefore_eq hQ]
  have e2 : (pre ++ .pipe a p :: bef) ++ .pipe n (mergePipe p p') :: Q :: (aft ++ .pipe b p' :: post) =
      pre ++ .pipe a p :: (bef ++ .pipe n (mergePipe p p') :: Q :: (aft ++ .pipe b p' :: post)) := by simp
  rw [e2]
  have hnN : (ids (pre ++ .pipe a p :: (bef ++ .pipe n (mergePipe p p') :: Q :: (aft ++ .pipe b p' :: post)))).Nodup := by
    rw [← e2]
    have : (ids ((pre ++ .pipe a p :: bef) ++ .pipe n (mergePipe p p') :: Q :: (aft ++ .pipe b p' :: post))).Perm
        (n :: ids ((pre ++ .pipe a p :: bef) ++ Q :: (aft ++ .pipe b p' :: post))) := by
      exact (List.perm_middle (a := Op.pipe n (mergePipe p p'))).map (·.id)
    exact this.nodup_iff.2 (List.nodup_cons.2 ⟨hfr, hn'⟩)
  obtain ⟨r, hr⟩ : ∃ r : Op β → Op β, r = fun o => o.rename a p.combs.length b p'.combs.length n := ⟨_, rfl⟩
  rw [← hr]
  have hid : ∀ o, (r o).id = o.id := fun o => by rw [hr]; exact Op.rename_id ..
  have hids : ∀ X : List (Op β), ids (X.map r) = ids X := fun X => by simp [ids, hid]
  have s1 : remove a ((pre ++ .pipe a p :: (bef ++ .pipe n (mergePipe p p') :: Q :: (aft ++ .pipe b p' :: post))).map r) =
      (pre ++ (bef ++ .pipe n (mergePipe p p') :: Q :: aft)).map r ++ r (.pipe b p') :: post.map r := by
    have := remove_mid (o := r (.pipe a p)) (X := pre.map r) (Y := (bef ++ .pipe n (mergePipe p p') :: Q :: (aft ++ .pipe b p' :: post)).map r)
      (by rw [← List.map_cons, ← List.map_append, hids]; exact hnN)
    rw [hid, ← List.map_cons, ← List.map_append] at this
    rw [show (Op.pipe a p).id = a from rfl] at this
    rw [this]; simp
  have hn2 : (ids ((pre ++ (bef ++ .pipe n (mergePipe p p') :: Q :: aft)).map r ++ r (.pipe b p') :: post.map r)).Nodup := by
    rw [← List.map_cons, ← List.map_append, hids]
    refine hnN.sublist ?_
    refine List.Sublist.map _ ?_
    simp
  have s2 := remove_mid hn2
  rw [hid, show (Op.pipe b p').id = b from rfl] at s2
  rw [s1, s2]
  simp

end Verif.Hor

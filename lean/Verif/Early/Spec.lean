/-
  Functions with several returns: what the pass does to them.
-/
import Verif.Early.Ok

namespace Verif.Early
variable {V F W : Type}

/-! ### Specification -/

/-- No return. -/
def noRet : Block F → Prop
  | .nil => True
  | .op _ _ _ k => noRet k
  | .ite _ _ t e k => noRet t ∧ noRet e ∧ noRet k
  | .yield _ k => noRet k
  | .ret _ _ => False

/-- Exactly one return, at the end. -/
def single : Block F → Prop
  | .nil => False
  | .op _ _ _ k => single k
  | .ite _ _ t e k => noRet t ∧ noRet e ∧ single k
  | .yield _ k => single k
  | .ret _ k => k = .nil

/-- Bodies of functions as they are parsed: returns of `M` values; a yield is at the end of the branch of an `if`, for the results of this `if`; an `if` with returns has no results or is the last operation; after an `if` with returns
nested in further `if`s there is nothing but a return. -/
def Src (M : Nat) : Block F → Prop
  | .nil => True
  | .op _ _ _ k => Src M k
  | .yield _ k => k = .nil
  | .ret vs k => vs.length = M ∧ Src M k
  | .ite rs _ t e k => Src M t ∧ Src M e ∧ Src M k ∧ (2 ≤ dep t ∨ 2 ≤ dep e → Term k) ∧ (0 < dep t → closed t = true) ∧ (0 < dep e → closed e = true) ∧
    (0 < dep t ∨ 0 < dep e → (rs = [] ∨ k = .nil) ∧ endsY rs.length t ∧ endsY rs.length e)

/-! ### Lemmas -/

theorem noRet_of_dep : ∀ {b : Block F}, dep b = 0 → noRet b
  | .nil, _ => trivial
  | .op _ _ _ k, h => noRet_of_dep (b := k) h
  | .ite _ _ t e k, h => by
    obtain ⟨h1, h2, h3⟩ := dep_ite_zero h
    exact ⟨noRet_of_dep h1, noRet_of_dep h2, noRet_of_dep h3⟩
  | .yield _ k, h => noRet_of_dep (b := k) h
  | .ret _ k, h => by
    simp only [dep] at h
    omega

theorem single_of_dep : ∀ {b : Block F}, dep b ≤ 1 → retLast b = true → single b
  | .nil, _, h => by cases h
  | .op _ _ _ k, hd, h => single_of_dep (b := k) hd h
  | .ite _ _ t e k, hd, h => by
    simp only [dep] at hd
    have h1 : dep t ≤ 0 := up_le (by omega)
    have h2 : dep e ≤ 0 := up_le (by omega)
    exact ⟨noRet_of_dep (by omega), noRet_of_dep (by omega), single_of_dep (b := k) (by omega) h⟩
  | .yield _ k, hd, h => single_of_dep (b := k) hd h
  | .ret _ k, hd, h => by
    cases k <;> first | rfl | cases h

theorem single.closed : ∀ {b : Block F}, single b → Early.closed b = true
  | .nil, h => by cases h
  | .op _ _ _ k, h => single.closed (b := k) h
  | .ite _ _ t e k, h => single.closed (b := k) h.2.2
  | .yield _ k, h => closed_yield (single.closed (b := k) h)
  | .ret _ k, h => by
    cases h
    rfl

theorem lt_bound : ∀ {l : List Nat} {x : Nat}, x ∈ l → x < bound l
  | [], x, h => by cases h
  | y :: l, x, h => by
    simp only [bound, List.foldr_cons]
    rcases List.mem_cons.1 h with rfl | h
    · omega
    · have := lt_bound h
      simp only [bound] at this
      omega

theorem Src.inv {M : Nat} : ∀ {b : Block F}, Src M b → K b ∧ U M b
  | .nil, _ => ⟨trivial, trivial⟩
  | .op _ _ _ k, h => Src.inv (b := k) h
  | .ite rs c t e k, ⟨h1, h2, h3, h4, h5, h6, h7⟩ =>
    ⟨⟨h1.inv.1, h2.inv.1, h3.inv.1, h4, h5, h6⟩, h1.inv.2, h2.inv.2, h3.inv.2, fun hd => ⟨(h7 hd).1.imp_right .inr, (h7 hd).2⟩⟩
  | .yield _ k, h => by
    cases h
    exact ⟨rfl, trivial⟩
  | .ret _ k, h => ⟨(h.2.inv).1, h.1, h.2.inv.2⟩

theorem Top.dep {y : Bool} : ∀ {b : Block F}, Top y b → 0 < Early.dep b
  | .nil, h => by cases h
  | .op _ _ _ k, h => Top.dep (b := k) h
  | .ite rs c t e k, h => by
    simp only [Early.dep]
    rcases h with h | h | h
    · have := Top.dep h.2.2
      omega
    · have := Top.dep h.top
      omega
    · have := Top.dep h.2.1
      have := le_up (Early.dep t)
      omega
  | .yield _ _, h => by cases h
  | .ret _ k, h => by
    simp only [Early.dep]
    omega

theorem retLast_trunc : ∀ {b : Block F}, hasRet b = true → retLast (trunc b) = true
  | .nil, h => by cases h
  | .op _ _ _ k, h => retLast_trunc (b := k) h
  | .ite _ _ _ _ k, h => retLast_trunc (b := k) h
  | .yield _ k, h => retLast_trunc (b := k) h
  | .ret _ _, _ => rfl

theorem hasRet_trunc : ∀ {b : Block F}, hasRet (trunc b) = hasRet b
  | .nil => rfl
  | .op _ _ _ k => hasRet_trunc (b := k)
  | .ite _ _ _ _ k => hasRet_trunc (b := k)
  | .yield _ k => hasRet_trunc (b := k)
  | .ret _ _ => rfl

/-- The values of a block that has been through a round. -/
theorem step_defs {params : List Nat} {b b' : Block F} (hd : 2 ≤ dep b) (hK : K b) (hn : (params ++ defs b).Nodup) (hs : step (bound (params ++ (defs b ++ uses b))) (dep b) b [] = .ok b') : (params ++ defs b').Nodup := by
  obtain ⟨-, -, h3, -⟩ := step_inv _ _ _ _ _ hs rfl hd hK (fun p hp => by cases hp)
  rw [List.nodup_iff_count]
  intro x
  have h1 := h3 x
  have h2 := List.nodup_iff_count.1 hn x
  rw [List.count_append] at h2 ⊢
  by_cases hx : x ∈ params ++ defs b
  · have : x < bound (params ++ (defs b ++ uses b)) := lt_bound (by
      rw [List.mem_append] at hx
      rcases hx with hx | hx <;> simp [hx])
    rw [if_neg (by omega)] at h1
    omega
  · have h4 := List.count_eq_zero.2 hx
    rw [List.count_append] at h4
    split at h1 <;> omega

theorem loop_dep_zero {params : List Nat} {m : Nat} {b : Block F} (h : dep b = 0) : loop params (m + 1) b = .ok b := by rw [loop, if_pos h]

/-- The loop keeps what the function returns. -/
theorem loop_kept (sem : Sem V F W) {params : List Nat} : ∀ (m : Nat) (b b' : Block F) (env : Env V) (w : W) (fs : List V) (w' : W), loop params m b = .ok b' → K b → (params ++ defs b).Nodup → (∀ x, env x ≠ none → x ∈ params) →
    exec sem b env w = some (.ret fs, w') → exec sem b' env w = some (.ret fs, w')
  | 0, b, b', env, w, fs, w', hl, hK, hn, he, h => by cases hl
  | m + 1, b, b', env, w, fs, w', hl, hK, hn, he, h => by
    rw [loop] at hl
    split at hl
    · cases hl
      exact h
    · split at hl
      · split at hl
        · cases hl
          exact h
        · refine loop_kept sem m (trunc b) b' env w fs w' hl hK.trunc ?_ he (by rwa [exec_trunc])
          rw [List.nodup_iff_count] at hn ⊢
          intro x
          have := hn x
          have := defs_trunc x b
          rw [List.count_append] at *
          omega
      · next h0 h1 =>
        rw [bind_ok] at hl
        obtain ⟨b1, hs, hl⟩ := hl
        have hd : 2 ≤ dep b := by omega
        have hnb := List.nodup_append.1 hn
        obtain ⟨o', ho, hor⟩ := step_meaning sem _ _ _ _ _ env w _ _ fs hs rfl hd hK (fun p hp => by cases hp) hnb.2.1 (by
          intro x hx
          cases hex : env x with
          | none => rfl
          | some v => exact absurd rfl (hnb.2.2 x (he x (by rw [hex]; simp)) x hx)) h rfl
        have : o' = .ret fs := hor.elim id id
        subst this
        exact loop_kept sem m b1 b' env w fs w' hl (step_inv _ _ _ _ _ hs rfl hd hK (fun p hp => by cases hp)).1 (step_defs hd hK hn hs) he ho

theorem step_not_running {n : Nat} : ∀ (d : Nat) (b : Block F) (outer : List (List Nat × Block F)), step n d b outer ≠ .error .running
  | d, .nil, outer, h => by cases h
  | d, .op rs f args k, outer, h => by
    rw [step] at h
    cases hk : step n d k outer with
    | ok k' =>
      rw [hk] at h
      cases h
    | error s =>
      rw [hk] at h
      cases h
      exact step_not_running d k outer hk
  | d, .yield vs k, outer, h => by
    rw [step] at h
    cases hk : step n d k outer with
    | ok k' =>
      rw [hk] at h
      cases h
    | error s =>
      rw [hk] at h
      cases h
      exact step_not_running d k outer hk
  | d, .ret vs k, outer, h => by
    rw [step] at h
    cases hk : step n d k outer with
    | ok k' =>
      rw [hk] at h
      cases h
    | error s =>
      rw [hk] at h
      cases h
      exact step_not_running d k outer hk
  | d, .ite rs c t e k, outer, h => by
    rw [step] at h
    split at h
    · split at h
      · unfold rectify at h
        generalize (if hasRet t && hasRet e then k else .nil) = k1 at h
        split at h
        · split at h
          · cases h
          · simp only at h
            split at h <;> cases h
        · cases h
      · split at h
        · cases hk : step n (d - 1) t ((rs, k) :: outer) with
          | ok k' =>
            rw [hk] at h
            cases h
          | error s =>
            rw [hk] at h
            cases h
            exact step_not_running _ _ _ hk
        · cases hk : step n (d - 1) e ((rs, k) :: outer) with
          | ok k' =>
            rw [hk] at h
            cases h
          | error s =>
            rw [hk] at h
            cases h
            exact step_not_running _ _ _ hk
    · cases hk : step n d k outer with
      | ok k' =>
        rw [hk] at h
        cases h
      | error s =>
        rw [hk] at h
        cases h
        exact step_not_running _ _ _ hk

/-- The result of the loop does not depend on the bound once this is large enough. -/
theorem loop_ends {params : List Nat} : ∀ (b : Block F), K b → ∃ r, r ≠ .error .running ∧ ∀ m, mu b + 2 ≤ m → loop params m b = r := by
  intro b
  generalize hc : mu b = c
  induction c using Nat.strongRecOn generalizing b with
  | ind c ih =>
    intro hK
    by_cases h0 : dep b = 0
    · exact ⟨.ok b, by simp, fun m hm => by
        obtain ⟨m, rfl⟩ : ∃ m', m = m' + 1 := ⟨m - 1, by omega⟩
        exact loop_dep_zero h0⟩
    by_cases h1 : dep b = 1
    · by_cases hr : retLast b = true
      · refine ⟨.ok b, by simp, fun m hm => ?_⟩
        obtain ⟨m, rfl⟩ : ∃ m', m = m' + 1 := ⟨m - 1, by omega⟩
        rw [loop, if_neg h0, if_pos h1, if_pos hr]
      · have hh : hasRet b = true := by
          cases hh : hasRet b with
          | true => rfl
          | false => exact absurd (dep_hasRet hh (by omega)) h0
        have ht1 : dep (trunc b) = 1 := by
          have := hasRet_dep (b := trunc b) (by rw [hasRet_trunc]; exact hh)
          have := dep_trunc b
          omega
        refine ⟨.ok (trunc b), by simp, fun m hm => ?_⟩
        obtain ⟨m, rfl⟩ : ∃ m', m = m' + 1 + 1 := ⟨m - 2, by omega⟩
        rw [loop, if_neg h0, if_pos h1, if_neg hr, loop, if_neg (by omega), if_pos ht1, if_pos (retLast_trunc hh)]
    · have hd : 2 ≤ dep b := by omega
      cases hs : step (bound (params ++ (defs b ++ uses b))) (dep b) b [] with
      | error s =>
        refine ⟨.error s, ?_, fun m hm => ?_⟩
        · intro h
          cases h
          exact step_not_running _ _ _ hs
        · obtain ⟨m, rfl⟩ : ∃ m', m = m' + 1 := ⟨m - 1, by omega⟩
          rw [loop, if_neg h0, if_neg h1, hs]
          rfl
      | ok b1 =>
        obtain ⟨k1, -, -, k4, -⟩ := step_inv _ _ _ _ _ hs rfl hd hK (fun p hp => by cases hp)
        obtain ⟨r, hr, hrm⟩ := ih (mu b1) (by omega) b1 rfl k1
        refine ⟨r, hr, fun m hm => ?_⟩
        obtain ⟨m, rfl⟩ : ∃ m', m = m' + 1 := ⟨m - 1, by omega⟩
        rw [loop, if_neg h0, if_neg h1, hs]
        exact hrm m (by omega)

theorem loop_succ {M : Nat} {params : List Nat} : ∀ (m : Nat) (b : Block F) (r : Except Stop (Block F)), loop params m b = r → r ≠ .error .running → K b → U M b → WS params b → Top false b → (params ++ defs b).Nodup →
    ∃ b', r = .ok b' ∧ single b' ∧ WS params b'
  | 0, b, r, hl, hr, _, _, _, _, _ => by
    rw [loop] at hl
    exact absurd hl.symm hr
  | m + 1, b, r, hl, hr, hK, hU, hW, hT, hn => by
    have h0 : dep b ≠ 0 := by
      have := hT.dep
      omega
    rw [loop, if_neg h0] at hl
    split at hl
    · next h1 =>
      split at hl
      · next hrl => exact ⟨b, hl.symm, single_of_dep (by omega) hrl, hW⟩
      · have hh := hT.hasRet (by omega)
        have ht1 : dep (trunc b) = 1 := by
          have := hasRet_dep (b := trunc b) (by rw [hasRet_trunc]; exact hh)
          have := dep_trunc b
          omega
        rcases m with _ | m
        · rw [loop] at hl
          exact absurd hl.symm hr
        · rw [loop, if_neg (by omega), if_pos ht1, if_pos (retLast_trunc hh)] at hl
          exact ⟨trunc b, hl.symm, single_of_dep (by omega) (retLast_trunc hh), hW.trunc⟩
    · next h1 =>
      have hd : 2 ≤ dep b := by omega
      have hnb := List.nodup_append.1 hn
      obtain ⟨b1, hs, h3, h4, h5⟩ := step_succ (M := M) (n := bound (params ++ (defs b ++ uses b))) (dep b) b [] params rfl hd hK (fun p hp => by cases hp) (.inl ⟨trivial, hT⟩) hW hU hnb.2.1
        (fun x hx hp => hnb.2.2 x hp x hx rfl) (fun x hx => lt_bound (by simp [hx]))
      rw [hs] at hl
      obtain ⟨k1, -, -, -, -⟩ := step_inv _ _ _ _ _ hs rfl hd hK (fun p hp => by cases hp)
      exact loop_succ m b1 r hl hr k1 h4 h3 (h5 trivial hT) (step_defs hd hK hn hs)

/-! ### Theorems -/

/-- A function where every path ends with a return, in `if`s without results or at the end, is accepted; one return is left, at the end of the function; values are defined before they are used; the values returned and the
effects are those of the function as written. -/
theorem C252_early_returns {M : Nat} {params : List Nat} {b : Block F} (hs : Src M b) (ht : Top false b) (hw : WS params b) (hn : (params ++ defs b).Nodup) :
    ∃ b', (∃ m0, ∀ m, m0 ≤ m → body params m b = .ok b') ∧ single b' ∧ WS params b' ∧
      ∀ (V W : Type) (sem : Sem V F W) (env : Env V) (w : W) (fs : List V) (w' : W), (∀ x, env x ≠ none → x ∈ params) → exec sem b env w = some (.ret fs, w') → exec sem b' env w = some (.ret fs, w') := by
  obtain ⟨r, hr, hrm⟩ := loop_ends (params := params) b hs.inv.1
  obtain ⟨b', rfl, h2, h3⟩ := loop_succ _ b r (hrm _ (Nat.le_refl _)) hr hs.inv.1 hs.inv.2 hw ht hn
  refine ⟨b', ⟨mu b + 2, fun m hm => ?_⟩, h2, h3, fun V W sem env w fs w' he h => ?_⟩
  · unfold body
    rw [hrm m hm]
    show Except.ok (if closed b' then b' else addRet b') = .ok b'
    rw [if_pos h2.closed]
  · exact loop_kept sem _ b b' env w fs w' (hrm _ (Nat.le_refl _)) hs.inv.1 hn he h

theorem exec_addRet (sem : Sem V F W) : ∀ (b : Block F) (env : Env V) (w : W) (fs : List V) (w' : W), exec sem b env w = some (.ret fs, w') → exec sem (addRet b) env w = some (.ret fs, w')
  | .nil, env, w, fs, w', h => by cases h
  | .op rs f args k, env, w, fs, w', h => by
    simp only [exec, Option.bind_eq_some_iff] at h
    obtain ⟨xs, hxs, h⟩ := h
    simp only [addRet, exec, hxs, Option.bind_some]
    exact exec_addRet sem k _ _ _ _ h
  | .ite rs c t e k, env, w, fs, w', h => by
    rw [exec_ite, Option.bind_eq_some_iff] at h
    obtain ⟨b, hb, h⟩ := h
    rw [Option.bind_eq_some_iff] at h
    obtain ⟨⟨o1, w1⟩, hr1, h⟩ := h
    simp only [addRet, exec_ite, hb, Option.bind_some, hr1]
    cases o1 with
    | ret vs => exact h
    | yield vs => exact exec_addRet sem k _ _ _ _ h
    | fall => exact exec_addRet sem k _ _ _ _ h
  | .yield vs k, env, w, fs, w', h => by
    simp only [exec, Option.map_eq_some_iff] at h
    obtain ⟨xs, hxs, h⟩ := h
    cases h
  | .ret vs k, env, w, fs, w', h => by
    simp only [exec, addRet] at h ⊢
    exact h

/-- Without the conditions on results and on the ends of paths: the pass ends, and what it accepts returns the same values with the same effects. -/
theorem C252_kept {params : List Nat} {b : Block F} (hK : K b) (hn : (params ++ defs b).Nodup) :
    (∃ m0, ∀ m, m0 ≤ m → body params m b ≠ .error .running) ∧
      ∀ (m : Nat) (b' : Block F), body params m b = .ok b' → ∀ (V W : Type) (sem : Sem V F W) (env : Env V) (w : W) (fs : List V) (w' : W), (∀ x, env x ≠ none → x ∈ params) → exec sem b env w = some (.ret fs, w') →
        exec sem b' env w = some (.ret fs, w') := by
  constructor
  · obtain ⟨r, hr, hrm⟩ := loop_ends (params := params) b hK
    refine ⟨mu b + 2, fun m hm h => ?_⟩
    unfold body at h
    rw [hrm m hm] at h
    cases r with
    | ok b' => cases h
    | error s =>
      cases h
      exact hr rfl
  · intro m b' hb V W sem env w fs w' he h
    unfold body at hb
    rw [bind_ok] at hb
    obtain ⟨b1, hl, hb⟩ := hb
    have := loop_kept sem m b b1 env w fs w' hl hK hn he h
    cases hb
    split
    · exact this
    · exact exec_addRet sem _ _ _ _ _ this

/-! ### Examples -/

inductive Ex where
  | const (c : Int)
  | gt
  | print
  deriving DecidableEq

/-- Numbers; what is printed. -/
def exSem : Sem Int Ex (List Int) where
  op
    | .const c, _, w => ([c], w)
    | .gt, [x, y], w => ([if x > y then 1 else 0], w)
    | .gt, _, w => ([], w)
    | .print, xs, w => ([], w ++ xs)
  truthy x := x != 0

/-- `f(a)`: the value `a` is number 0. -/
def exEnv (a : Int) : Env Int := fun x => if x = 0 then some a else none

def cst (r : Nat) (c : Int) (k : Block Ex) : Block Ex := .op [r] (.const c) [] k
def gt (r x y : Nat) (k : Block Ex) : Block Ex := .op [r] .gt [x, y] k
def prt (x : Nat) (k : Block Ex) : Block Ex := .op [] .print [x] k

/-- `if (a > 0) { return 1; } if (a > 5) { print(a); } else { return 2; } print(a); return 3;` -/
def guards : Block Ex :=
  cst 1 0 (gt 2 0 1 (.ite [] 2 (cst 3 1 (.ret [3] (.yield [] .nil))) .nil
    (cst 4 (-5) (gt 5 0 4 (.ite [] 5 (prt 0 (.yield [] .nil)) (cst 6 2 (.ret [6] (.yield [] .nil))) (prt 0 (cst 7 3 (.ret [7] .nil))))))))

/-- test/api/cli/functions/early_return_1.daphne, shortened: `r = 0; if (a > 0) { if (a > 10) { return 5; } print(a); r = 1; return r; } else { r = 5; return a; }` -/
def both : Block Ex :=
  cst 1 0 (gt 2 0 1 (.ite [20] 2 (cst 3 10 (gt 4 0 3 (.ite [] 4 (cst 5 5 (.ret [5] (.yield [] .nil))) .nil (prt 0 (cst 6 1 (.ret [6] (.yield [6] .nil)))))))
    (cst 7 5 (.ret [0] (.yield [7] .nil))) .nil))

example : Src 1 guards ∧ Top false guards ∧ WS [0] guards ∧ ([0] ++ defs guards).Nodup := by
  refine ⟨?_, ?_, ?_, by decide⟩
  · simp [guards, cst, gt, prt, Src, dep, closed, endsY]
  · simp [guards, cst, gt, prt, Top, endR, dep]
  · simp [guards, cst, gt, prt, WS]

example : Src 1 both ∧ Top false both ∧ WS [0] both ∧ ([0] ++ defs both).Nodup := by
  refine ⟨?_, ?_, ?_, by decide⟩
  · simp [both, cst, gt, prt, Src, dep, up, closed, endsY, Term]
  · simp [both, cst, gt, prt, Top, endR, dep, up]
  · simp [both, cst, gt, prt, WS]

/-- What a function returns for `a`, and what it prints. -/
def run (b : Block Ex) (a : Int) : Option (List Int × List Int) :=
  match exec exSem b (exEnv a) [] with
  | some (.ret vs, w) => some (vs, w)
  | _ => none

def runBody (b : Block Ex) (a : Int) : Option (List Int × List Int) :=
  match body [0] 30 b with
  | .ok b' => run b' a
  | .error _ => none

example : [7, -3, -9].map (run guards) = [some ([1], []), some ([3], [-3, -3]), some ([2], [])] ∧ [7, -3, -9].map (runBody guards) = [7, -3, -9].map (run guards) := by decide +kernel
example : [17, 3, -9].map (run both) = [some ([5], []), some ([1], [3]), some ([-9], [])] ∧ [17, 3, -9].map (runBody both) = [17, 3, -9].map (run both) := by decide +kernel

/-! ### What goes wrong -/

/-- `r = 0; if (a > 0) { if (a > 5) { return 5; } r = 1; } else { return 3; } return r;` -/
def assigns : Block Ex :=
  cst 1 0 (gt 2 0 1 (.ite [20] 2 (cst 3 5 (gt 4 0 3 (.ite [] 4 (cst 5 5 (.ret [5] (.yield [] .nil))) .nil (cst 6 1 (.yield [6] .nil)))))
    (cst 7 3 (.ret [7] (.yield [1] .nil))) (.ret [20] .nil)))

/-- `r = 0; if (a > 0) { return 1; } else { r = 2; } if (a > -5) { print(r); } return r;` -/
def nestedUse : Block Ex :=
  cst 1 0 (gt 2 0 1 (.ite [20] 2 (cst 3 1 (.ret [3] (.yield [1] .nil))) (cst 4 2 (.yield [4] .nil)) (cst 5 (-5) (gt 6 0 5 (.ite [] 6 (prt 20 (.yield [] .nil)) .nil (.ret [20] .nil))))))

/-- Whether the pass stops like this, or has this result. -/
def stops (s : Stop) (r : Except Stop (Block Ex)) : Bool :=
  match r with
  | .ok _ => false
  | .error s' => s' == s

def yields (b : Block Ex) (r : Except Stop (Block Ex)) : Bool :=
  match r with
  | .ok b' => b' == b
  | .error _ => false

theorem stops_eq {s : Stop} {r : Except Stop (Block Ex)} (h : stops s r = true) : r = .error s := by
  cases r with
  | ok b => cases h
  | error s' =>
    simp only [stops, beq_iff_eq] at h
    rw [h]

theorem yields_eq {b : Block Ex} {r : Except Stop (Block Ex)} (h : yields b r = true) : r = .ok b := by
  cases r with
  | error s => cases h
  | ok b' =>
    simp only [yields, beq_iff_eq] at h
    rw [h]

/-- If the `if` also assigns variables that are used afterwards, then the `if` is erased while its results are in use: on each path there is one return at the end, and the functions have a meaning. -/
theorem C253_results_in_use_partial :
    (WS [0] assigns ∧ ([0] ++ defs assigns).Nodup ∧ [9, 3, -1].map (run assigns) = [some ([5], []), some ([1], []), some ([3], [])] ∧ ∀ m, 30 ≤ m → body [0] m assigns = .error .ub) ∧
    (WS [0] nestedUse ∧ ([0] ++ defs nestedUse).Nodup ∧ [9, -3, -9].map (run nestedUse) = [some ([1], []), some ([2], [2]), some ([2], [])] ∧ ∀ m, 30 ≤ m → body [0] m nestedUse = .error .ub) := by
  have hK : K assigns ∧ K nestedUse := by simp [assigns, nestedUse, cst, gt, prt, K, dep, up, closed, Term]
  have hb : ∀ b : Block Ex, K b → mu b + 2 ≤ 30 → body [0] 30 b = .error .ub → ∀ m, 30 ≤ m → body [0] m b = .error .ub := by
    intro b hKb hmu h30 m hm
    obtain ⟨r, -, hr⟩ := loop_ends (params := [0]) b hKb
    unfold body at h30 ⊢
    rw [hr 30 hmu] at h30
    rw [hr m (by omega)]
    exact h30
  refine ⟨⟨?_, by decide, by decide +kernel, hb _ hK.1 (by decide +kernel) (stops_eq (by decide +kernel))⟩, ⟨?_, by decide, by decide +kernel, hb _ hK.2 (by decide +kernel) (stops_eq (by decide +kernel))⟩⟩
  · simp [assigns, cst, gt, WS]
  · simp [nestedUse, cst, gt, prt, WS]

/-- `if (a > 0) { if (a > 10) { return 1; } } return 2;` -/
def codeAfter : Block Ex :=
  cst 1 0 (gt 2 0 1 (.ite [] 2 (cst 3 10 (gt 4 0 3 (.ite [] 4 (cst 5 1 (.ret [5] (.yield [] .nil))) .nil (.yield [] .nil)))) .nil (cst 6 2 (.ret [6] .nil))))

/-- What becomes of it. -/
def codeCopied : Block Ex :=
  cst 1 0 (gt 2 0 1 (.ite [30] 2 (cst 3 10 (gt 4 0 3 (.ite [14] 4 (cst 5 1 (.yield [5] .nil)) (cst 13 2 (.yield [6] .nil)) (.yield [14] .nil)))) (cst 6 2 (.yield [6] .nil)) (.ret [30] .nil)))

/-- If a return is nested in two `if`s and operations follow the outer one, then the copies of these operations use values of the originals, which are not defined there. -/
theorem C254_copied_operations_partial : WS [0] codeAfter ∧ ([0] ++ defs codeAfter).Nodup ∧ [19, 3, -1].map (run codeAfter) = [some ([1], []), some ([2], []), some ([2], [])] ∧
    body [0] 30 codeAfter = .ok codeCopied ∧ ¬WS [0] codeCopied ∧ [19, 3, -1].map (run codeCopied) = [some ([1], []), none, some ([2], [])] := by
  refine ⟨by simp [codeAfter, cst, gt, WS], by decide, by decide +kernel, yields_eq (by decide +kernel), ?_, by decide +kernel⟩
  simp [codeCopied, cst, gt, WS]

/-- `if (a > 0) { return 1; } if (a > -5) { return 2; } else { return 3; }` -/
def noLast : Block Ex :=
  cst 1 0 (gt 2 0 1 (.ite [] 2 (cst 3 1 (.ret [3] (.yield [] .nil))) .nil (cst 4 (-5) (gt 5 0 4 (.ite [] 5 (cst 6 2 (.ret [6] (.yield [] .nil))) (cst 7 3 (.ret [7] (.yield [] .nil))) .nil)))))

/-- A function where each path ends with a return is rejected if an `if` with returns is followed by an `if` with a return in both branches, and no return. -/
theorem C255_no_return_at_the_end_partial : WS [0] noLast ∧ ([0] ++ defs noLast).Nodup ∧ Src 1 noLast ∧ [9, -3, -9].map (run noLast) = [some ([1], []), some ([2], []), some ([3], [])] ∧
    ∀ m, 30 ≤ m → body [0] m noLast = .error .throw := by
  have hS : Src 1 noLast := by simp [noLast, cst, gt, Src, dep, closed, endsY]
  refine ⟨by simp [noLast, cst, gt, WS], by decide, hS, by decide +kernel, ?_⟩
  intro m hm
  obtain ⟨r, -, hr⟩ := loop_ends (params := [0]) noLast hS.inv.1
  have hmu : mu noLast + 2 ≤ 30 := by decide +kernel
  have h30 : body [0] 30 noLast = .error .throw := stops_eq (by decide +kernel)
  unfold body at h30 ⊢
  rw [hr 30 hmu] at h30
  rw [hr m (by omega)]
  exact h30

end Verif.Early

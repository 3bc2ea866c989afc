/-
  Model of the inference pass, src/compiler/inference/InferencePass.cpp:116-470: types of SSA values are inferred operation by operation; for
  loops, the inference of the body is repeated until the yielded types are the types of the loop-carried values. Properties C145-C147.

  Programs are `Front.Code` (operations, scf.if, scf.while, scf.for). The inference of a single operation is a parameter (`tr`); see
  `Verif/Infer/Shape.lean` for it. Simplifications: the value type of an inserted cast is the one of its argument (InferTypes of CastOp for a cast
  to an unknown value type); the values types that are kept between rounds (`walkSetUnknown`) are inferred again.
-/
import Verif.Front.Ssa
import Verif.Infer.Types

namespace Verif.Infer
open Verif.Front
variable {F Val W T : Type} [DecidableEq T]

/-- The types: common type of two types (`getTypeWithCommonInfo`), the type of a cast that was inserted to remove properties when it is inferred
again (CastOp has `ShapeFromArg`, and its value type is inferred; other properties are unknown), the type of loop variables. -/
structure Dom (T : Type) where
  common : T → T → Option T
  erase : T → T
  intTy : T

/-- InferencePass.cpp:349-374 (while), 419-442 (for): one loop-carried value; `b`: a cast was inserted before the yield. The new type of the
operand, and whether there is a cast. -/
def Dom.mergeOne (D : Dom T) (b : Bool) (y op : T) : Option (T × Bool) :=
  if y = op then some (op, b) else (D.common y op).map fun c => (c, b || decide (y ≠ c))

/-- The loop over all loop-carried values; different data types are an error. -/
def Dom.mergeAll (D : Dom T) : List Bool → List T → List T → Run (List T × List Bool)
  | [], [], [] => .ok ([], [])
  | b :: bs, y :: ys, o :: os =>
    match D.mergeOne b y o with
    | none => .error .undef
    | some p => D.mergeAll bs ys os >>= fun q => .ok (p.1 :: q.1, p.2 :: q.2)
  | _, _, _ => .error .undef

/-- The type of the operand of the yield: with a cast before it, properties are removed. -/
def Dom.yielded (D : Dom T) (b : Bool) (y : T) : T := if b then D.erase y else y

/-- InferencePass.cpp:300-383, 396-452: the `while (true)` around the inference of a loop body. `f` infers the body for given types of the
loop-carried values and gives the types of the results of the loop and of the yielded values. At most `n` rounds. -/
def Dom.rounds (D : Dom T) (f : List T → Run (List T × List T)) : Nat → List T → List Bool → Run (List T)
  | 0, _, _ => .error .fuel
  | n + 1, ops, fl =>
    f ops >>= fun p =>
      if p.2.length ≠ ops.length then .error .undef
      else if List.zipWith D.yielded fl p.2 = ops then .ok p.1
      else D.mergeAll fl (List.zipWith D.yielded fl p.2) ops >>= fun q => D.rounds f n q.1 q.2

/-- InferencePass.cpp:455-480: common types of the values yielded by the two branches of an if. -/
def Dom.commonAll (D : Dom T) : List T → List T → Run (List T)
  | [], [] => .ok []
  | a :: as, b :: bs =>
    match D.common a b with
    | none => .error .undef
    | some c => D.commonAll as bs >>= fun cs => .ok (c :: cs)
  | _, _ => .error .undef

/-- The pass on a block: the types of the values after it. `tr` infers the result types of an operation; `n` bounds the number of rounds of
every loop. -/
def infer (D : Dom T) (tr : F → List T → Run (List T)) (n : Nat) : Code F → Env T → Run (Env T)
  | .done, te => .ok te
  | .op rs f as k, te => te.getAll as >>= fun ts => tr f ts >>= fun us => te.setAll rs us >>= fun te' => infer D tr n k te'
  | .rename r a k, te => te.get a >>= fun t => infer D tr n k (te.upd r t)
  | .arith r _ as k, te => te.getAll as >>= fun _ => infer D tr n k (te.upd r D.intTy)
  | .ite rs c t ty e ey k, te =>
    te.get c >>= fun _ => infer D tr n t te >>= fun te1 => te1.getAll ty >>= fun ts => infer D tr n e te >>= fun te2 => te2.getAll ey >>= fun es =>
      D.commonAll ts es >>= fun cs => te.setAll rs cs >>= fun te' => infer D tr n k te'
  | .whil rs is bs bc _ ca aas ac ay k, te =>
    te.getAll is >>= fun ops =>
      D.rounds (fun ops => te.setAll bs ops >>= fun tb => infer D tr n bc tb >>= fun tb' => tb'.getAll ca >>= fun cts =>
        te.setAll aas cts >>= fun ta => infer D tr n ac ta >>= fun ta' => ta'.getAll ay >>= fun ys => .ok (cts, ys)) n ops (ops.map fun _ => false)
        >>= fun res => te.setAll rs res >>= fun te' => infer D tr n k te'
  | .loop rs _ _ _ is iv it b y k, te =>
    te.getAll is >>= fun ops =>
      D.rounds (fun ops => (te.upd iv D.intTy).setAll it ops >>= fun tb => infer D tr n b tb >>= fun tb' => tb'.getAll y >>= fun ys => .ok (ops, ys)) n
        ops (ops.map fun _ => false)
        >>= fun res => te.setAll rs res >>= fun te' => infer D tr n k te'

/-! ### Specification -/

/-- Every value has the properties its type claims. -/
def EnvFits (Fits : Val → T → Prop) (ρ : Env Val) (te : Env T) : Prop := ∀ v x t, ρ v = some x → te v = some t → Fits x t

/-- The inference of single operations is right: if the arguments have the inferred properties, so have the results (an operation that
fails returns a wrong number of results). -/
def OpsSound (S : Sem F Val W) (Fits : Val → T → Prop) (tr : F → List T → Run (List T)) : Prop :=
  ∀ f ts us xs w, tr f ts = .ok us → List.Forall₂ Fits xs ts → (S.op f xs w).1.length = us.length → List.Forall₂ Fits (S.op f xs w).1 us

/-- The common type and the type of an inserted cast claim nothing new. -/
structure Dom.Sound (D : Dom T) (Fits : Val → T → Prop) : Prop where
  left : ∀ a b c x, D.common a b = some c → Fits x a → Fits x c
  right : ∀ a b c x, D.common a b = some c → Fits x b → Fits x c
  erase : ∀ a x, Fits x a → Fits x (D.erase a)

/-! ### Soundness -/

omit [DecidableEq T] in
theorem getAll_fits {Fits : Val → T → Prop} {ρ : Env Val} {te : Env T} (h : EnvFits Fits ρ te) : ∀ {vs xs ts},
    ρ.getAll vs = .ok xs → te.getAll vs = .ok ts → List.Forall₂ Fits xs ts
  | [], xs, ts, h1, h2 => by
    simp only [Env.getAll] at h1 h2
    injection h1 with h1; injection h2 with h2
    subst h1; subst h2; exact .nil
  | v :: vs, xs, ts, h1, h2 => by
    simp only [Env.getAll, Env.get] at h1 h2
    cases hx : ρ v with
    | none => rw [hx] at h1; cases h1
    | some x =>
    cases ht : te v with
    | none => rw [ht] at h2; cases h2
    | some t =>
    rw [hx] at h1; rw [ht] at h2
    simp only [Run.ok_bind] at h1 h2
    cases hxs : ρ.getAll vs with
    | error e => rw [hxs] at h1; cases h1
    | ok xs' =>
    cases hts : te.getAll vs with
    | error e => rw [hts] at h2; cases h2
    | ok ts' =>
    rw [hxs] at h1; rw [hts] at h2
    simp only [Run.ok_bind] at h1 h2
    injection h1 with h1; injection h2 with h2
    subst h1; subst h2
    exact .cons (h v x t hx ht) (getAll_fits h hxs hts)

omit [DecidableEq T] in
theorem upd_fits {Fits : Val → T → Prop} {ρ : Env Val} {te : Env T} (h : EnvFits Fits ρ te) (r : Nat) {x : Val} {t : T} (hx : Fits x t) :
    EnvFits Fits (ρ.upd r x) (te.upd r t) := by
  intro v y u h1 h2
  simp only [Env.upd] at h1 h2
  by_cases e : v = r
  · simp only [e, if_true] at h1 h2
    injection h1 with h1; injection h2 with h2
    subst h1; subst h2; exact hx
  · simp only [e, if_false] at h1 h2
    exact h v y u h1 h2

omit [DecidableEq T] in
theorem setAll_fits {Fits : Val → T → Prop} : ∀ {rs : List Nat} {xs ts} {ρ ρ' : Env Val} {te te' : Env T}, EnvFits Fits ρ te →
    List.Forall₂ Fits xs ts → ρ.setAll rs xs = .ok ρ' → te.setAll rs ts = .ok te' → EnvFits Fits ρ' te'
  | [], xs, ts, ρ, ρ', te, te', h, hf, h1, h2 => by
    cases hf with
    | nil =>
      simp only [Env.setAll] at h1 h2
      injection h1 with h1; injection h2 with h2
      subst h1; subst h2; exact h
    | cons => simp [Env.setAll] at h1
  | r :: rs, xs, ts, ρ, ρ', te, te', h, hf, h1, h2 => by
    cases hf with
    | nil => simp [Env.setAll] at h1
    | cons hx hf => exact setAll_fits (upd_fits h r hx) hf h1 h2

omit [DecidableEq T] in
theorem setAll_length : ∀ {rs : List Nat} {ts : List T} {te te' : Env T}, te.setAll rs ts = .ok te' → ts.length = rs.length
  | [], [], _, _, _ => rfl
  | r :: rs, t :: ts, te, te', h => by
    simp only [List.length_cons]
    rw [setAll_length (rs := rs) (ts := ts) (te := te.upd r t) h]
  | [], _ :: _, _, _, h => by simp [Env.setAll] at h
  | _ :: _, [], _, _, h => by simp [Env.setAll] at h

theorem bind_ok {α β : Type} {m : Run α} {f : α → Run β} {b : β} (h : m >>= f = .ok b) : ∃ a, m = .ok a ∧ f a = .ok b := by
  cases m with
  | error e => cases h
  | ok a => exact ⟨a, rfl, h⟩

theorem mergeAll_fits {D : Dom T} {Fits : Val → T → Prop} (hD : D.Sound Fits) : ∀ {bs ys os q}, D.mergeAll bs ys os = .ok q →
    (∀ xs, List.Forall₂ Fits xs os → List.Forall₂ Fits xs q.1)
  | [], [], [], q, h => by
    simp only [Dom.mergeAll] at h
    injection h with h; subst h
    intro xs hx; exact hx
  | b :: bs, y :: ys, o :: os, q, h => by
    simp only [Dom.mergeAll] at h
    cases hm : D.mergeOne b y o with
    | none => rw [hm] at h; cases h
    | some p =>
    rw [hm] at h
    obtain ⟨q', h1, h2⟩ := bind_ok h
    injection h2 with h2; subst h2
    intro xs hx
    cases hx with
    | cons hx1 hx2 =>
    refine .cons ?_ (mergeAll_fits hD h1 _ hx2)
    unfold Dom.mergeOne at hm
    split at hm
    · injection hm with hm; subst hm; exact hx1
    · obtain ⟨c, hc, rfl⟩ := Option.map_eq_some_iff.1 hm
      exact hD.right _ _ _ _ hc hx1
  | [], _ :: _, _, _, h => by simp [Dom.mergeAll] at h
  | [], [], _ :: _, _, h => by simp [Dom.mergeAll] at h
  | _ :: _, [], _, _, h => by simp [Dom.mergeAll] at h
  | _ :: _, _ :: _, [], _, h => by simp [Dom.mergeAll] at h

omit [DecidableEq T] in
theorem yielded_fits {D : Dom T} {Fits : Val → T → Prop} (hD : D.Sound Fits) : ∀ {fl : List Bool} {ys : List T} {xs : List Val}, fl.length = ys.length →
    List.Forall₂ Fits xs ys → List.Forall₂ Fits xs (List.zipWith D.yielded fl ys)
  | [], [], _, _, h => h
  | b :: fl, y :: ys, _, hl, .cons h1 h2 => by
    refine .cons ?_ (yielded_fits hD (by simpa using hl) h2)
    unfold Dom.yielded
    cases b
    · exact h1
    · exact hD.erase _ _ h1
  | [], _ :: _, _, hl, _ => by simp at hl
  | _ :: _, [], _, hl, _ => by simp at hl

theorem mergeAll_length {D : Dom T} : ∀ {bs ys os q}, D.mergeAll bs ys os = .ok q → q.1.length = os.length ∧ q.2.length = os.length
  | [], [], [], q, h => by
    simp only [Dom.mergeAll] at h
    injection h with h; subst h; exact ⟨rfl, rfl⟩
  | b :: bs, y :: ys, o :: os, q, h => by
    simp only [Dom.mergeAll] at h
    cases hm : D.mergeOne b y o with
    | none => rw [hm] at h; cases h
    | some p =>
    rw [hm] at h
    obtain ⟨q', h1, h2⟩ := bind_ok h
    injection h2 with h2; subst h2
    have := mergeAll_length h1
    simp [this.1, this.2]
  | [], _ :: _, _, _, h => by simp [Dom.mergeAll] at h
  | [], [], _ :: _, _, h => by simp [Dom.mergeAll] at h
  | _ :: _, [], _, _, h => by simp [Dom.mergeAll] at h
  | _ :: _, _ :: _, [], _, h => by simp [Dom.mergeAll] at h

/-- What the end of the rounds means: types of the loop-carried values that the initial and the yielded values have. -/
theorem rounds_ok {D : Dom T} {Fits : Val → T → Prop} (hD : D.Sound Fits) (f : List T → Run (List T × List T)) : ∀ {n ops fl res},
    D.rounds f n ops fl = .ok res → fl.length = ops.length →
    ∃ ops' ys, f ops' = .ok (res, ys) ∧ (∀ xs, List.Forall₂ Fits xs ops → List.Forall₂ Fits xs ops') ∧
      (∀ xs, List.Forall₂ Fits xs ys → List.Forall₂ Fits xs ops')
  | 0, ops, fl, res, h, hl => by cases h
  | n + 1, ops, fl, res, h, hl => by
    simp only [Dom.rounds] at h
    obtain ⟨p, h1, h2⟩ := bind_ok h
    split at h2
    · cases h2
    · rename_i hlen
      have hlen : p.2.length = ops.length := by simpa using hlen
      split at h2
      · rename_i heq
        injection h2 with h2
        subst h2
        refine ⟨ops, p.2, h1, fun _ h => h, ?_⟩
        intro xs hx
        have := yielded_fits hD (fl := fl) (by omega) hx
        rw [heq] at this; exact this
      · obtain ⟨q, h3, h4⟩ := bind_ok h2
        have hql := mergeAll_length h3
        obtain ⟨ops', ys, k1, k2, k3⟩ := rounds_ok hD f h4 (by omega)
        exact ⟨ops', ys, k1, fun xs hx => k2 xs (mergeAll_fits hD h3 xs hx), k3⟩

theorem iterate_inv {α β : Type} {f : α → Run (α ⊕ β)} (I : α → Prop) (Q : β → Prop)
    (step : ∀ a r, I a → f a = .ok r → (∀ a', r = .inl a' → I a') ∧ (∀ b, r = .inr b → Q b)) : ∀ n a b, I a → iterate f n a = .ok b → Q b
  | 0, _, _, _, h => by cases h
  | n + 1, a, b, ha, h => by
    simp only [iterate] at h
    obtain ⟨r, h1, h2⟩ := bind_ok h
    obtain ⟨s1, s2⟩ := step a r ha h1
    cases r with
    | inl a' => exact iterate_inv I Q step n a' b (s1 a' rfl) h2
    | inr b' =>
      injection h2 with h2
      subst h2; exact s2 _ rfl

theorem foldRun_inv {α β : Type} {f : β → α → Run β} (I : β → Prop) (step : ∀ b a b', I b → f b a = .ok b' → I b') :
    ∀ l b b', I b → foldRun f b l = .ok b' → I b'
  | [], b, b', hb, h => by
    simp only [foldRun] at h
    injection h with h; subst h; exact hb
  | a :: l, b, b', hb, h => by
    simp only [foldRun] at h
    obtain ⟨c, h1, h2⟩ := bind_ok h
    exact foldRun_inv I step l c b' (step b a c hb h1) h2

omit [DecidableEq T] in
theorem commonAll_fits {D : Dom T} {Fits : Val → T → Prop} (hD : D.Sound Fits) : ∀ {as bs cs}, D.commonAll as bs = .ok cs →
    (∀ xs, List.Forall₂ Fits xs as → List.Forall₂ Fits xs cs) ∧ (∀ xs, List.Forall₂ Fits xs bs → List.Forall₂ Fits xs cs)
  | [], [], cs, h => by
    simp only [Dom.commonAll] at h
    injection h with h; subst h
    exact ⟨fun _ h => h, fun _ h => h⟩
  | a :: as, b :: bs, cs, h => by
    simp only [Dom.commonAll] at h
    cases hc : D.common a b with
    | none => rw [hc] at h; cases h
    | some c =>
    rw [hc] at h
    obtain ⟨cs', h1, h2⟩ := bind_ok h
    injection h2 with h2; subst h2
    obtain ⟨k1, k2⟩ := commonAll_fits hD h1
    constructor
    · intro xs hx
      cases hx with
      | cons h1 h2 => exact .cons (hD.left _ _ _ _ hc h1) (k1 _ h2)
    · intro xs hx
      cases hx with
      | cons h1 h2 => exact .cons (hD.right _ _ _ _ hc h1) (k2 _ h2)
  | [], _ :: _, _, h => by simp [Dom.commonAll] at h
  | _ :: _, [], _, h => by simp [Dom.commonAll] at h

/-- **C145.** If the inference of a program ends, then its result is right: in every execution, with any number of iterations of the loops,
every value has the properties its type claims (given that the inference of single operations is right and that the inputs have the properties
of their types). -/
theorem C145_inference_sound (S : Sem F Val W) (Fits : Val → T → Prop) (D : Dom T) (tr : F → List T → Run (List T)) (hD : D.Sound Fits)
    (hT : OpsSound S Fits tr) (hI : ∀ z, Fits (S.ofInt z) D.intTy) (n fuel : Nat) (code : Code F) (te te' : Env T) (ρ ρ' : Env Val) (w w' : W)
    (hi : infer D tr n code te = .ok te') (hρ : EnvFits Fits ρ te) (hr : code.exec S fuel ρ w = .ok (ρ', w')) : EnvFits Fits ρ' te' := by
  induction code generalizing te te' ρ ρ' w w' with
  | done =>
    simp only [infer, Code.exec] at hi hr
    injection hi with hi; injection hr with hr
    injection hr with hr _
    subst hi; subst hr; exact hρ
  | op rs f as k ih =>
    simp only [infer, Code.exec] at hi hr
    obtain ⟨ts, i1, hi⟩ := bind_ok hi
    obtain ⟨us, i2, hi⟩ := bind_ok hi
    obtain ⟨te1, i3, hi⟩ := bind_ok hi
    obtain ⟨xs, r1, hr⟩ := bind_ok hr
    obtain ⟨ρ1, r2, hr⟩ := bind_ok hr
    refine ih _ _ _ _ _ _ hi (setAll_fits hρ (hT f ts us xs w i2 (getAll_fits hρ r1 i1) ?_) r2 i3) hr
    rw [setAll_length i3, setAll_length r2]
  | rename r a k ih =>
    simp only [infer, Code.exec] at hi hr
    obtain ⟨t, i1, hi⟩ := bind_ok hi
    obtain ⟨x, r1, hr⟩ := bind_ok hr
    refine ih _ _ _ _ _ _ hi (upd_fits hρ r ?_) hr
    unfold Env.get at i1 r1
    cases h1 : te a with
    | none => rw [h1] at i1; cases i1
    | some t' =>
    cases h2 : ρ a with
    | none => rw [h2] at r1; cases r1
    | some x' =>
    rw [h1] at i1; rw [h2] at r1
    injection i1 with i1; injection r1 with r1
    subst i1; subst r1
    exact hρ a _ _ h2 h1
  | arith r f as k ih =>
    simp only [infer, Code.exec] at hi hr
    obtain ⟨t, i1, hi⟩ := bind_ok hi
    obtain ⟨xs, r1, hr⟩ := bind_ok hr
    cases hz : f.eval (xs.map S.toInt) with
    | none => rw [hz] at hr; cases hr
    | some z =>
    rw [hz] at hr
    exact ih _ _ _ _ _ _ hi (upd_fits hρ r (hI z)) hr
  | ite rs c t ty e ey k iht ihe ih =>
    simp only [infer, Code.exec] at hi hr
    obtain ⟨_, -, hi⟩ := bind_ok hi
    obtain ⟨te1, i1, hi⟩ := bind_ok hi
    obtain ⟨ts, i2, hi⟩ := bind_ok hi
    obtain ⟨te2, i3, hi⟩ := bind_ok hi
    obtain ⟨es, i4, hi⟩ := bind_ok hi
    obtain ⟨cs, i5, hi⟩ := bind_ok hi
    obtain ⟨te3, i6, hi⟩ := bind_ok hi
    obtain ⟨x, r1, hr⟩ := bind_ok hr
    obtain ⟨q, r2, hr⟩ := bind_ok hr
    obtain ⟨ρ1, r3, hr⟩ := bind_ok hr
    have hc := commonAll_fits hD i5
    refine ih _ _ _ _ _ _ hi (setAll_fits hρ ?_ r3 i6) hr
    split at r2
    · obtain ⟨p, r4, r2⟩ := bind_ok r2
      obtain ⟨ys, r5, r2⟩ := bind_ok r2
      injection r2 with r2; subst r2
      exact hc.1 _ (getAll_fits (iht te te1 ρ p.1 w p.2 i1 hρ r4) r5 i2)
    · obtain ⟨p, r4, r2⟩ := bind_ok r2
      obtain ⟨ys, r5, r2⟩ := bind_ok r2
      injection r2 with r2; subst r2
      exact hc.2 _ (getAll_fits (ihe te te2 ρ p.1 w p.2 i3 hρ r4) r5 i4)
  | whil rs is bs bc c ca aas ac ay k ihb iha ih =>
    simp only [infer, Code.exec] at hi hr
    obtain ⟨ops, i1, hi⟩ := bind_ok hi
    obtain ⟨res, i2, hi⟩ := bind_ok hi
    obtain ⟨te3, i3, hi⟩ := bind_ok hi
    obtain ⟨xs, r1, hr⟩ := bind_ok hr
    obtain ⟨q, r2, hr⟩ := bind_ok hr
    obtain ⟨ρ1, r3, hr⟩ := bind_ok hr
    refine ih _ _ _ _ _ _ hi (setAll_fits hρ ?_ r3 i3) hr
    obtain ⟨ops', ys, k1, k2, k3⟩ := rounds_ok hD _ i2 (by simp)
    obtain ⟨tb, j1, k1⟩ := bind_ok k1
    obtain ⟨tb', j2, k1⟩ := bind_ok k1
    obtain ⟨cts, j3, k1⟩ := bind_ok k1
    obtain ⟨ta, j4, k1⟩ := bind_ok k1
    obtain ⟨ta', j5, k1⟩ := bind_ok k1
    obtain ⟨ys', j6, k1⟩ := bind_ok k1
    injection k1 with k1
    injection k1 with k1 k1'
    subst k1; subst k1'
    refine iterate_inv (fun st : List Val × W => List.Forall₂ Fits st.1 ops') (fun b => List.Forall₂ Fits b.1 cts) ?_ fuel (xs, w) q
      (k2 xs (getAll_fits hρ r1 i1)) r2
    intro st r hst hstep
    obtain ⟨ρb, s1, hstep⟩ := bind_ok hstep
    obtain ⟨p, s2, hstep⟩ := bind_ok hstep
    obtain ⟨x, s3, hstep⟩ := bind_ok hstep
    obtain ⟨zs, s4, hstep⟩ := bind_ok hstep
    have hb := setAll_fits hρ hst s1 j1
    have hz := getAll_fits (ihb tb tb' ρb p.1 st.2 p.2 j2 hb s2) s4 j3
    split at hstep
    · obtain ⟨ρa, s5, hstep⟩ := bind_ok hstep
      obtain ⟨q', s6, hstep⟩ := bind_ok hstep
      obtain ⟨us, s7, hstep⟩ := bind_ok hstep
      injection hstep with hstep; subst hstep
      have ha := setAll_fits hρ hz s5 j4
      have hu := getAll_fits (iha ta ta' ρa q'.1 p.2 q'.2 j5 ha s6) s7 j6
      refine ⟨?_, (by intro b hb; cases hb)⟩
      intro a' ha'
      injection ha' with ha'; subst ha'
      exact k3 _ hu
    · injection hstep with hstep; subst hstep
      refine ⟨(by intro b hb; cases hb), ?_⟩
      intro b hb
      injection hb with hb; subst hb
      exact hz
  | loop rs l u s is iv it b y k ihb ih =>
    simp only [infer, Code.exec] at hi hr
    obtain ⟨ops, i1, hi⟩ := bind_ok hi
    obtain ⟨res, i2, hi⟩ := bind_ok hi
    obtain ⟨te3, i3, hi⟩ := bind_ok hi
    obtain ⟨lx, -, hr⟩ := bind_ok hr
    obtain ⟨ux, -, hr⟩ := bind_ok hr
    obtain ⟨sx, -, hr⟩ := bind_ok hr
    obtain ⟨xs, r1, hr⟩ := bind_ok hr
    obtain ⟨zs, -, hr⟩ := bind_ok hr
    obtain ⟨q, r2, hr⟩ := bind_ok hr
    obtain ⟨ρ1, r3, hr⟩ := bind_ok hr
    refine ih _ _ _ _ _ _ hi (setAll_fits hρ ?_ r3 i3) hr
    obtain ⟨ops', ys, k1, k2, k3⟩ := rounds_ok hD _ i2 (by simp)
    obtain ⟨tb, j1, k1⟩ := bind_ok k1
    obtain ⟨tb', j2, k1⟩ := bind_ok k1
    obtain ⟨ys', j3, k1⟩ := bind_ok k1
    injection k1 with k1
    injection k1 with k1 k1'
    subst k1; subst k1'
    refine foldRun_inv (fun st : List Val × W => List.Forall₂ Fits st.1 ops') ?_ zs (xs, w) q (k2 xs (getAll_fits hρ r1 i1)) r2
    intro st z st' hst hstep
    obtain ⟨ρb, s1, hstep⟩ := bind_ok hstep
    obtain ⟨p, s2, hstep⟩ := bind_ok hstep
    obtain ⟨us, s3, hstep⟩ := bind_ok hstep
    injection hstep with hstep; subst hstep
    have hb := setAll_fits (upd_fits hρ iv (hI z)) hst s1 j1
    exact k3 _ (getAll_fits (ihb tb tb' ρb p.1 st.2 p.2 j2 hb s2) s3 j3)

end Verif.Infer

/-
  More fuel does not change a result: runs of scripts and of the generated code have one outcome, the fuel only bounds how far they are
  followed.
-/
import Verif.Front.TransAccept

namespace Verif.Front

section
variable {α β γ : Type}

/-- The second run is the first one, followed further. -/
def Further (r r' : Run α) : Prop := r = .error .fuel ∨ r' = r

theorem Further.refl (r : Run α) : Further r r := .inr rfl

theorem Further.bind {r r' : Run α} {f f' : α → Run β} (h : Further r r') (hf : ∀ a, Further (f a) (f' a)) : Further (r >>= f) (r' >>= f') := by
  rcases h with rfl | rfl
  · exact .inl rfl
  · cases r' with
    | ok a => exact hf a
    | error e => exact .inr rfl

theorem Further.ite {b : Bool} {r r' s s' : Run α} (h : Further r r') (h' : Further s s') :
    Further (if b then r else s) (if b then r' else s') := by cases b <;> assumption

theorem Further.iterate {f f' : α → Run (α ⊕ β)} (h : ∀ a, Further (f a) (f' a)) (n k : Nat) (a : α) :
    Further (iterate f n a) (iterate f' (n + k) a) := by
  induction n generalizing a with
  | zero => exact .inl rfl
  | succ n ih =>
    rw [show n + 1 + k = n + k + 1 by omega]
    simp only [Front.iterate]
    refine (h a).bind fun r => ?_
    cases r with
    | inl a => exact ih a
    | inr b => exact .refl _

theorem Further.fold {f f' : β → α → Run β} (h : ∀ b a, Further (f b a) (f' b a)) (l : List α) (b : β) : Further (foldRun f b l) (foldRun f' b l) := by
  induction l generalizing b with
  | nil => exact .refl _
  | cons a l ih =>
    simp only [foldRun]
    exact (h b a).bind fun b => ih b

end

section
variable {ν F Val W : Type} [DecidableEq ν] {S : Sem F Val W}

theorem forRun_further {f f' : Vars ν Val → W → Run (Vars ν Val × W)} (h : ∀ σ w, Further (f σ w) (f' σ w)) (x : ν) (σ : Vars ν Val) (w : W)
    (a b s : Int) : Further (forRun S f x σ w a b s) (forRun S f' x σ w a b s) := by
  simp only [forRun]
  split
  · exact Further.fold (fun b a => (h _ _).bind fun _ => .refl _) _ _
  · exact .refl _

theorem Stmt.run_further (st : Stmt ν F) (n k : Nat) (σ : Vars ν Val) (w : W) : Further (st.run S n σ w) (st.run S (n + k) σ w) := by
  induction st generalizing σ w with
  | skip => exact .refl _
  | seq a b iha ihb => exact (iha σ w).bind fun p => ihb _ _
  | expr e => exact .refl _
  | assign x e => exact .refl _
  | assigns xs f as => exact .refl _
  | block b ih => exact (ih σ w).bind fun p => .refl _
  | ifThen c t ih => exact Further.bind (.refl _) fun p => .ite ((ih _ _).bind fun _ => .refl _) (.refl _)
  | ifElse c t e iht ihe => exact Further.bind (.refl _) fun p => .ite ((iht _ _).bind fun _ => .refl _) ((ihe _ _).bind fun _ => .refl _)
  | «while» c b ih => exact Further.iterate (fun a => Further.bind (.refl _) fun p => .ite ((ih _ _).bind fun _ => .refl _) (.refl _)) _ _ _
  | doWhile b c ih => exact Further.iterate (fun a => (ih _ _).bind fun p => .refl _) _ _ _
  | «for» x lo hi b ih =>
    exact Further.bind (.refl _) fun p => Further.bind (.refl _) fun q => forRun_further (fun σ w => ih σ w) _ _ _ _ _ _
  | forStep x lo hi step b ih =>
    exact Further.bind (.refl _) fun p => Further.bind (.refl _) fun q => Further.bind (.refl _) fun r =>
      forRun_further (fun σ w => ih σ w) _ _ _ _ _ _

theorem Code.exec_further (c : Code F) (n k : Nat) (ρ : Env Val) (w : W) : Further (c.exec S n ρ w) (c.exec S (n + k) ρ w) := by
  induction c generalizing ρ w with
  | done => exact .refl _
  | op r f a c ih => exact Further.bind (.refl _) fun p => Further.bind (.refl _) fun q => ih _ _
  | rename r a c ih => exact Further.bind (.refl _) fun p => ih _ _
  | arith r f a c ih =>
    refine Further.bind (.refl _) fun p => ?_
    cases f.eval (p.map S.toInt) with
    | some z => exact ih _ _
    | none => exact .refl _
  | ite r c t ty e ey c' iht ihe ih =>
    exact Further.bind (.refl _) fun p => Further.bind (.ite ((iht _ _).bind fun _ => .refl _) ((ihe _ _).bind fun _ => .refl _)) fun q =>
      Further.bind (.refl _) fun _ => ih _ _
  | whil r i b bc c ca aa ac ay k' ihb iha ih =>
    refine Further.bind (.refl _) fun p => Further.bind (Further.iterate (fun st => ?_) _ _ _) fun q => Further.bind (.refl _) fun _ => ih _ _
    exact Further.bind (.refl _) fun ρb => (ihb _ _).bind fun p => Further.bind (.refl _) fun x => Further.bind (.refl _) fun ys =>
      .ite (Further.bind (.refl _) fun ρa => (iha _ _).bind fun _ => .refl _) (.refl _)
  | loop r l u s i iv it b y c ihb ih =>
    refine Further.bind (.refl _) fun _ => Further.bind (.refl _) fun _ => Further.bind (.refl _) fun _ => Further.bind (.refl _) fun _ =>
      Further.bind (.refl _) fun zs => Further.bind (Further.fold (fun st z => ?_) _ _) fun _ => Further.bind (.refl _) fun _ => ih _ _
    exact Further.bind (.refl _) fun ρb => (ihb _ _).bind fun _ => .refl _

end

end Verif.Front

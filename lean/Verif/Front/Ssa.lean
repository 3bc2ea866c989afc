/-
  The part of MLIR the DSL parser emits: structured SSA code (operations of the DaphneIR dialect, scf.if, scf.while, scf.for),
  its execution, and the two ways the parser edits it (appending at the insertion point, replacing uses of a value).
  The meaning of `scf.*` is not defined in /repo; it is the documented meaning of these MLIR operations and part of the trusted base.
-/
namespace Verif.Front

/-- Why an execution has not finished: the step budget is used up (the program may be running forever); the program reads a variable or
value that does not exist; or it does something else whose result is not defined (an operation returns a wrong number of values, ...). -/
inductive Stop where
  | fuel
  | unbound
  | undef
  deriving DecidableEq, Repr

/-- Outcome of running a program. -/
abbrev Run (α : Type) := Except Stop α

namespace Run
variable {α β : Type}
@[simp] theorem ok_bind (a : α) (f : α → Run β) : ((.ok a : Run α) >>= f) = f a := rfl
@[simp] theorem error_bind (e : Stop) (f : α → Run β) : ((.error e : Run α) >>= f) = .error e := rfl
end Run

/-- What the operations do. `Val` are runtime values, `W` the state of the outside world (files, output, ...); `F` are the operations
with their attributes. An operation may read and change the world and returns a list of results. -/
structure Sem (F Val W : Type) where
  op : F → List Val → W → List Val × W
  toBool : Val → Bool
  toInt : Val → Int
  ofInt : Int → Val

/-- 64-bit signed wrap-around. -/
def wrap64 (z : Int) : Int := (z + 2 ^ 63) % 2 ^ 64 - 2 ^ 63

/-- Values a signed 64-bit integer can have. -/
def InI64 (z : Int) : Prop := - 2 ^ 63 ≤ z ∧ z < 2 ^ 63

theorem wrap64_eq {z : Int} (h : InI64 z) : wrap64 z = z := by unfold wrap64 InI64 at *; omega

/-- Integers survive the trip through a runtime value. -/
def Sem.Lawful {F Val W : Type} (S : Sem F Val W) : Prop := ∀ z, InI64 z → S.toInt (S.ofInt z) = z

/-- The scalar integer operations the parser itself emits for for-loops. -/
inductive Arith where
  | const (z : Int)
  | add
  | mul
  | sign
  | ge
  deriving DecidableEq, Repr

/-- Results of the scalar operations: two's complement. -/
def Arith.eval : Arith → List Int → Option Int
  | .const z, [] => some z
  | .add, [a, b] => some (wrap64 (a + b))
  | .mul, [a, b] => some (wrap64 (a * b))
  | .sign, [a] => some a.sign
  | .ge, [a, b] => some (if b ≤ a then 1 else 0)
  | _, _ => none

/-- A block of SSA code. Values are numbered. Each operation carries the rest of its block; regions are blocks together with their
block arguments and the operands of their terminator. -/
inductive Code (F : Type) where
  | done
  | op (res : List Nat) (f : F) (args : List Nat) (k : Code F)
  | rename (res arg : Nat) (k : Code F)
  | arith (res : Nat) (f : Arith) (args : List Nat) (k : Code F)
  | ite (res : List Nat) (c : Nat) (thn : Code F) (thnY : List Nat) (els : Code F) (elsY : List Nat) (k : Code F)
  | whil (res inits bargs : List Nat) (before : Code F) (c : Nat) (cargs aargs : List Nat) (after : Code F) (ay : List Nat) (k : Code F)
  | loop (res : List Nat) (lb ub st : Nat) (inits : List Nat) (iv : Nat) (iter : List Nat) (body : Code F) (y : List Nat) (k : Code F)
  deriving DecidableEq, Repr

namespace Code
variable {F : Type}

/-- Inserting `d` at the end of the block `c`. -/
def app : Code F → Code F → Code F
  | done, d => d
  | op r f a k, d => op r f a (k.app d)
  | rename r a k, d => rename r a (k.app d)
  | arith r f a k, d => arith r f a (k.app d)
  | ite r c t ty e ey k, d => ite r c t ty e ey (k.app d)
  | whil r i b bc c ca aa ac ay k, d => whil r i b bc c ca aa ac ay (k.app d)
  | loop r l u s i iv it b y k, d => loop r l u s i iv it b y (k.app d)

/-- Apply `g` to every operand of every operation, in all nested regions too; definitions stay. -/
def mapUses (g : Nat → Nat) : Code F → Code F
  | done => done
  | op r f a k => op r f (a.map g) (k.mapUses g)
  | rename r a k => rename r (g a) (k.mapUses g)
  | arith r f a k => arith r f (a.map g) (k.mapUses g)
  | ite r c t ty e ey k => ite r (g c) (t.mapUses g) (ty.map g) (e.mapUses g) (ey.map g) (k.mapUses g)
  | whil r i b bc c ca aa ac ay k =>
    whil r (i.map g) b (bc.mapUses g) (g c) (ca.map g) aa (ac.mapUses g) (ay.map g) (k.mapUses g)
  | loop r l u s i iv it b y k => loop r (g l) (g u) (g s) (i.map g) iv it (b.mapUses g) (y.map g) (k.mapUses g)

/-- Values defined by the operations of the block itself. -/
def defs : Code F → List Nat
  | done => []
  | op r _ _ k => r ++ k.defs
  | rename r _ k => r :: k.defs
  | arith r _ _ k => r :: k.defs
  | ite r _ _ _ _ _ k => r ++ k.defs
  | whil r _ _ _ _ _ _ _ _ k => r ++ k.defs
  | loop r _ _ _ _ _ _ _ _ k => r ++ k.defs

/-- Values defined in the block or in a nested region, with block arguments. -/
def allDefs : Code F → List Nat
  | done => []
  | op r _ _ k => r ++ k.allDefs
  | rename r _ k => r :: k.allDefs
  | arith r _ _ k => r :: k.allDefs
  | ite r _ t _ e _ k => r ++ t.allDefs ++ e.allDefs ++ k.allDefs
  | whil r _ b bc _ _ aa ac _ k => r ++ b ++ bc.allDefs ++ aa ++ ac.allDefs ++ k.allDefs
  | loop r _ _ _ _ iv it b _ k => r ++ (iv :: it) ++ b.allDefs ++ k.allDefs

end Code

/-! ### Execution -/

/-- The runtime values of the SSA values that exist at a point. -/
abbrev Env (Val : Type) := Nat → Option Val

namespace Env
variable {Val : Type}

def get (ρ : Env Val) (v : Nat) : Run Val :=
  match ρ v with
  | some x => .ok x
  | none => .error .unbound

def getAll (ρ : Env Val) : List Nat → Run (List Val)
  | [] => .ok []
  | v :: vs => do
    let x ← ρ.get v
    let xs ← getAll ρ vs
    .ok (x :: xs)

def upd (ρ : Env Val) (r : Nat) (x : Val) : Env Val := fun v => if v = r then some x else ρ v

def setAll (ρ : Env Val) : List Nat → List Val → Run (Env Val)
  | [], [] => .ok ρ
  | r :: rs, x :: xs => setAll (ρ.upd r x) rs xs
  | _, _ => .error .undef

end Env

/-- Repeat `f` until it delivers a result; at most `fuel` times. -/
def iterate {α β : Type} (f : α → Run (α ⊕ β)) : Nat → α → Run β
  | 0, _ => .error .fuel
  | n + 1, a => do
    match ← f a with
    | .inl a => iterate f n a
    | .inr b => .ok b

/-- The values the induction variable of scf.for takes: `lb, lb + st, …`, below `ub`. A step that is not positive is not allowed when
the loop has to run. (MLIR's lowering of scf.for to branches, with its own overflow when `ub` is near 2^63, is not modelled.) -/
def scfVals (lb ub st : Int) : Run (List Int) :=
  if ub ≤ lb then .ok []
  else if st ≤ 0 then .error .undef
  else .ok ((List.range ((ub - lb - 1) / st + 1).toNat).map fun (k : Nat) => lb + (k : Int) * st)

/-- A left fold that can stop. -/
def foldRun {α β : Type} (f : β → α → Run β) : β → List α → Run β
  | b, [] => .ok b
  | b, a :: l => f b a >>= fun b => foldRun f b l

section
variable {F Val W : Type} (S : Sem F Val W)

/-- Run a block; `fuel` bounds the number of iterations of each while-loop. The values defined inside a region are gone when the
region ends; only what its terminator hands out is kept. -/
def Code.exec (fuel : Nat) : Code F → Env Val → W → Run (Env Val × W)
  | .done, ρ, w => .ok (ρ, w)
  | .op rs f as k, ρ, w =>
    ρ.getAll as >>= fun xs => ρ.setAll rs (S.op f xs w).1 >>= fun ρ' => k.exec fuel ρ' (S.op f xs w).2
  | .rename r a k, ρ, w => ρ.get a >>= fun x => k.exec fuel (ρ.upd r x) w
  | .arith r f as k, ρ, w =>
    ρ.getAll as >>= fun xs =>
      match f.eval (xs.map S.toInt) with
      | some z => k.exec fuel (ρ.upd r (S.ofInt z)) w
      | none => .error .undef
  | .ite rs c t ty e ey k, ρ, w =>
    ρ.get c >>= fun x =>
      (if S.toBool x then t.exec fuel ρ w >>= fun p => p.1.getAll ty >>= fun ys => .ok (ys, p.2)
        else e.exec fuel ρ w >>= fun p => p.1.getAll ey >>= fun ys => .ok (ys, p.2)) >>= fun q =>
      ρ.setAll rs q.1 >>= fun ρ' => k.exec fuel ρ' q.2
  | .whil rs is bs bc c ca aas ac ay k, ρ, w =>
    ρ.getAll is >>= fun xs =>
      iterate (fun (st : List Val × W) =>
        ρ.setAll bs st.1 >>= fun ρb => bc.exec fuel ρb st.2 >>= fun p => p.1.get c >>= fun x => p.1.getAll ca >>= fun ys =>
          if S.toBool x then
            ρ.setAll aas ys >>= fun ρa => ac.exec fuel ρa p.2 >>= fun q => q.1.getAll ay >>= fun zs => .ok (.inl (zs, q.2))
          else .ok (.inr (ys, p.2))) fuel (xs, w) >>= fun q =>
      ρ.setAll rs q.1 >>= fun ρ' => k.exec fuel ρ' q.2
  | .loop rs l u s is iv it b y k, ρ, w =>
    ρ.get l >>= fun lx => ρ.get u >>= fun ux => ρ.get s >>= fun sx => ρ.getAll is >>= fun xs =>
      scfVals (S.toInt lx) (S.toInt ux) (S.toInt sx) >>= fun zs =>
      foldRun (fun (st : List Val × W) z =>
        (ρ.upd iv (S.ofInt z)).setAll it st.1 >>= fun ρb => b.exec fuel ρb st.2 >>= fun p => p.1.getAll y >>= fun ys =>
          .ok (ys, p.2)) (xs, w) zs >>= fun q =>
      ρ.setAll rs q.1 >>= fun ρ' => k.exec fuel ρ' q.2

end

/-! ### Facts -/

section
variable {F Val W : Type} {S : Sem F Val W}

theorem exec_app (fuel : Nat) (c d : Code F) (ρ : Env Val) (w : W) :
    (c.app d).exec S fuel ρ w = c.exec S fuel ρ w >>= fun p => d.exec S fuel p.1 p.2 := by
  induction c generalizing ρ w with
  | done => rfl
  | op r f a k ih =>
    simp only [Code.app, Code.exec, bind_assoc, ih]
  | rename r a k ih => simp only [Code.app, Code.exec, bind_assoc, ih]
  | arith r f a k ih =>
    simp only [Code.app, Code.exec, bind_assoc]
    congr 1; funext xs
    cases f.eval (xs.map S.toInt) with
    | some z => exact ih _ _
    | none => rfl
  | ite r c t ty e ey k _ _ ih => simp only [Code.app, Code.exec, bind_assoc, ih]
  | whil r i b bc c ca aa ac ay k _ _ ih => simp only [Code.app, Code.exec, bind_assoc, ih]
  | loop r l u s i iv it b y k _ ih => simp only [Code.app, Code.exec, bind_assoc, ih]

theorem defs_app (c d : Code F) : (c.app d).defs = c.defs ++ d.defs := by
  induction c <;> simp_all [Code.app, Code.defs]

theorem allDefs_app (c d : Code F) : (c.app d).allDefs = c.allDefs ++ d.allDefs := by
  induction c <;> simp_all [Code.app, Code.allDefs]

theorem defs_subset (c : Code F) : ∀ v ∈ c.defs, v ∈ c.allDefs := by
  induction c <;> simp_all [Code.defs, Code.allDefs] <;> grind

theorem mapUses_mapUses (g f : Nat → Nat) (c : Code F) : (c.mapUses f).mapUses g = c.mapUses (g ∘ f) := by
  induction c <;> simp_all [Code.mapUses]

theorem mapUses_app (g : Nat → Nat) (c d : Code F) : (c.app d).mapUses g = (c.mapUses g).app (d.mapUses g) := by
  induction c <;> simp_all [Code.app, Code.mapUses]

theorem getAll_comp (ρ : Env Val) (f : Nat → Nat) (vs : List Nat) : Env.getAll (ρ ∘ f) vs = ρ.getAll (vs.map f) := by
  induction vs with
  | nil => rfl
  | cons v vs ih => simp only [Env.getAll, List.map_cons, ih]; rfl

theorem get_comp (ρ : Env Val) (f : Nat → Nat) (v : Nat) : Env.get (ρ ∘ f) v = ρ.get (f v) := rfl

/-- `f` leaves the values of `ds` alone and maps nothing else to them. -/
def Keeps (f : Nat → Nat) (ds : List Nat) : Prop := ∀ r ∈ ds, f r = r ∧ ∀ v, f v = r → v = r

theorem upd_comp (ρ : Env Val) (f : Nat → Nat) (r : Nat) (x : Val) (h : Keeps f [r]) : (ρ.upd r x) ∘ f = Env.upd (ρ ∘ f) r x := by
  funext v
  obtain ⟨h1, h2⟩ := h r (by simp)
  simp only [Function.comp, Env.upd]
  by_cases hv : v = r
  · subst hv; simp [h1]
  · rw [if_neg hv, if_neg (fun e => hv (h2 v e))]

theorem setAll_comp (f : Nat → Nat) (rs : List Nat) (h : Keeps f rs) (ρ : Env Val) (xs : List Val) :
    Env.setAll (ρ ∘ f) rs xs = (ρ.setAll rs xs) >>= fun ρ' => .ok (ρ' ∘ f) := by
  induction rs generalizing ρ xs with
  | nil => cases xs <;> rfl
  | cons r rs ih =>
    cases xs with
    | nil => rfl
    | cons x xs =>
      simp only [Env.setAll]
      rw [← ih (fun r' hr => h r' (by simp [hr])), ← upd_comp _ _ _ _ (fun r' hr => h r' (by simp_all))]

theorem Keeps.mono {f : Nat → Nat} {a b : List Nat} (h : Keeps f b) (hs : ∀ v ∈ a, v ∈ b) : Keeps f a := fun r hr => h r (hs r hr)

/-- Replacing uses in code is the same as renaming the values it runs on. -/
theorem exec_mapUses (fuel : Nat) (f : Nat → Nat) (c : Code F) (h : Keeps f c.allDefs) (ρ : Env Val) (w : W) :
    c.exec S fuel (ρ ∘ f) w = (c.mapUses f).exec S fuel ρ w >>= fun p => .ok (p.1 ∘ f, p.2) := by
  induction c generalizing ρ w with
  | done => rfl
  | op r g a k ih =>
    have hk := fun ρ w => ih (h.mono (by simp [Code.allDefs]; grind)) ρ w
    simp only [Code.mapUses, Code.exec, bind_assoc, getAll_comp]
    rw [show Env.setAll (ρ ∘ f) r = fun xs => _ from funext fun xs => setAll_comp f r (h.mono (by simp [Code.allDefs]; grind)) ρ xs]
    simp only [bind_assoc, Run.ok_bind, hk]
  | rename r a k ih =>
    have hk := fun ρ w => ih (h.mono (by simp [Code.allDefs]; grind)) ρ w
    simp only [Code.mapUses, Code.exec, bind_assoc, get_comp]
    congr 1; funext x
    rw [← upd_comp _ _ _ _ (h.mono (by simp [Code.allDefs])), hk]
  | arith r g a k ih =>
    have hk := fun ρ w => ih (h.mono (by simp [Code.allDefs]; grind)) ρ w
    simp only [Code.mapUses, Code.exec, bind_assoc, getAll_comp]
    congr 1; funext xs
    cases g.eval (xs.map S.toInt) with
    | none => rfl
    | some z =>
      simp only []
      rw [← upd_comp _ _ _ _ (h.mono (by simp [Code.allDefs])), hk]
  | ite r c t ty e ey k iht ihe ih =>
    have hk := fun ρ w => ih (h.mono (by simp [Code.allDefs]; grind)) ρ w
    have hkt := fun ρ w => iht (h.mono (by simp [Code.allDefs]; grind)) ρ w
    have hke := fun ρ w => ihe (h.mono (by simp [Code.allDefs]; grind)) ρ w
    simp only [Code.mapUses, Code.exec, bind_assoc, get_comp, hkt, hke, Run.ok_bind, getAll_comp]
    rw [show Env.setAll (ρ ∘ f) r = fun xs => _ from funext fun xs => setAll_comp f r (h.mono (by simp [Code.allDefs]; grind)) ρ xs]
    simp only [bind_assoc, Run.ok_bind, hk]
  | whil r i b bc c ca aa ac ay k ihb iha ih =>
    have hk := fun ρ w => ih (h.mono (by simp [Code.allDefs]; grind)) ρ w
    have hkb := fun ρ w => ihb (h.mono (by simp [Code.allDefs]; grind)) ρ w
    have hka := fun ρ w => iha (h.mono (by simp [Code.allDefs]; grind)) ρ w
    simp only [Code.mapUses, Code.exec, bind_assoc, getAll_comp]
    rw [show Env.setAll (ρ ∘ f) r = fun xs => _ from funext fun xs => setAll_comp f r (h.mono (by simp [Code.allDefs]; grind)) ρ xs,
      show Env.setAll (ρ ∘ f) b = fun xs => _ from funext fun xs => setAll_comp f b (h.mono (by simp [Code.allDefs]; grind)) ρ xs,
      show Env.setAll (ρ ∘ f) aa = fun xs => _ from funext fun xs => setAll_comp f aa (h.mono (by simp [Code.allDefs]; grind)) ρ xs]
    simp only [bind_assoc, Run.ok_bind, hk, hkb, hka, getAll_comp, get_comp]
  | loop r l u s i iv it b y k ihb ih =>
    have hk := fun ρ w => ih (h.mono (by simp [Code.allDefs]; grind)) ρ w
    have hkb := fun ρ w => ihb (h.mono (by simp [Code.allDefs]; grind)) ρ w
    simp only [Code.mapUses, Code.exec, bind_assoc, getAll_comp, get_comp]
    have e1 : ∀ z, Env.upd (ρ ∘ f) iv z = (ρ.upd iv z) ∘ f := fun z => (upd_comp _ _ _ _ (h.mono (by simp [Code.allDefs]))).symm
    simp only [e1]
    have e2 : ∀ (ρ : Env Val), Env.setAll (ρ ∘ f) it = fun xs => (ρ.setAll it xs) >>= fun ρ' => .ok (ρ' ∘ f) :=
      fun ρ => funext fun xs => setAll_comp f it (h.mono (by simp [Code.allDefs]; grind)) ρ xs
    rw [show Env.setAll (ρ ∘ f) r = fun xs => _ from funext fun xs => setAll_comp f r (h.mono (by simp [Code.allDefs]; grind)) ρ xs]
    simp only [e2, bind_assoc, Run.ok_bind, hk, hkb, getAll_comp]

theorem setAll_other {rs : List Nat} {xs : List Val} {ρ ρ' : Env Val} (h : ρ.setAll rs xs = .ok ρ') (v : Nat) (hv : v ∉ rs) :
    ρ' v = ρ v := by
  induction rs generalizing xs ρ with
  | nil => cases xs <;> cases h; rfl
  | cons r rs ih =>
    cases xs with
    | nil => cases h
    | cons x xs =>
      simp only [List.mem_cons, not_or] at hv
      rw [ih h hv.2]; simp [Env.upd, hv.1]

theorem run_bind_ok {α β : Type} {m : Run α} {f : α → Run β} {b : β} (h : (m >>= f) = .ok b) : ∃ a, m = .ok a ∧ f a = .ok b := by
  cases m with
  | error e => cases h
  | ok a => exact ⟨a, rfl, h⟩

/-- A block only changes the values it defines. -/
theorem exec_frame {fuel : Nat} {c : Code F} {ρ ρ' : Env Val} {w w' : W} (h : c.exec S fuel ρ w = .ok (ρ', w')) (v : Nat)
    (hv : v ∉ c.defs) : ρ' v = ρ v := by
  induction c generalizing ρ w with
  | done => cases h; rfl
  | op r g a k ih =>
    simp only [Code.defs, List.mem_append, not_or] at hv
    simp only [Code.exec] at h
    obtain ⟨xs, _, h⟩ := run_bind_ok h
    obtain ⟨ρ1, h1, h⟩ := run_bind_ok h
    rw [ih h hv.2, setAll_other h1 v hv.1]
  | rename r a k ih =>
    simp only [Code.defs, List.mem_cons, not_or] at hv
    simp only [Code.exec] at h
    obtain ⟨xs, _, h⟩ := run_bind_ok h
    rw [ih h hv.2]; simp [Env.upd, hv.1]
  | arith r g a k ih =>
    simp only [Code.defs, List.mem_cons, not_or] at hv
    simp only [Code.exec] at h
    obtain ⟨xs, _, h⟩ := run_bind_ok h
    split at h
    · rw [ih h hv.2]; simp [Env.upd, hv.1]
    · cases h
  | ite r c t ty e ey k _ _ ih =>
    simp only [Code.defs, List.mem_append, not_or] at hv
    simp only [Code.exec] at h
    obtain ⟨x, _, h⟩ := run_bind_ok h
    obtain ⟨q, _, h⟩ := run_bind_ok h
    obtain ⟨ρ1, h1, h⟩ := run_bind_ok h
    rw [ih h hv.2, setAll_other h1 v hv.1]
  | whil r i b bc c ca aa ac ay k _ _ ih =>
    simp only [Code.defs, List.mem_append, not_or] at hv
    simp only [Code.exec] at h
    obtain ⟨x, _, h⟩ := run_bind_ok h
    obtain ⟨q, _, h⟩ := run_bind_ok h
    obtain ⟨ρ1, h1, h⟩ := run_bind_ok h
    rw [ih h hv.2, setAll_other h1 v hv.1]
  | loop r l u s i iv it b y k _ ih =>
    simp only [Code.defs, List.mem_append, not_or] at hv
    simp only [Code.exec] at h
    obtain ⟨_, _, h⟩ := run_bind_ok h
    obtain ⟨_, _, h⟩ := run_bind_ok h
    obtain ⟨_, _, h⟩ := run_bind_ok h
    obtain ⟨_, _, h⟩ := run_bind_ok h
    obtain ⟨_, _, h⟩ := run_bind_ok h
    obtain ⟨q, _, h⟩ := run_bind_ok h
    obtain ⟨ρ1, h1, h⟩ := run_bind_ok h
    rw [ih h hv.2, setAll_other h1 v hv.1]

end

end Verif.Front

/-
  Model of src/parser/ScopedSymbolTable.h: the stack of scopes the DSL parser keeps.
  `ν` are the names (std::string), `V` the SSA values (mlir::Value).
-/
import Verif.Basic.Res

namespace Verif.Front
variable {ν V : Type} [DecidableEq ν] [DecidableEq V]

/-- ScopedSymbolTable.h:42-55. -/
structure Info (V : Type) where
  value : V
  readOnly : Bool
  deriving DecidableEq, Repr

/-- ScopedSymbolTable.h:60: `std::unordered_map<std::string, SymbolInfo>`, as the list of its entries in iteration order.
Simplification: a new key is put at the end (in the code: wherever its hash puts it). -/
abbrev Tab (ν V : Type) := List (ν × Info V)

/-- `tab.find(sym)`. -/
def Tab.find (t : Tab ν V) (n : ν) : Option (Info V) := List.lookup n t

/-- `tab[sym] = info`. -/
def Tab.assign (t : Tab ν V) (n : ν) (i : Info V) : Tab ν V :=
  match t with
  | [] => [(n, i)]
  | (m, j) :: t => if m = n then (m, i) :: t else (m, j) :: Tab.assign t n i

/-- ScopedSymbolTable.h:66: the scopes, innermost first (in the code: innermost last). -/
abbrev Scopes (ν V : Type) := List (Tab ν V)

namespace Scopes

/-- ScopedSymbolTable.h:99: constructor. -/
def init : Scopes ν V := [[]]

/-- ScopedSymbolTable.h:76-81: `has(sym, parent)`. -/
def hasFrom (s : Scopes ν V) (n : ν) (parent : Nat) : Bool := (s.drop parent).any fun t => (t.find n).isSome

/-- ScopedSymbolTable.h:107: `has(sym)`. -/
def has (s : Scopes ν V) (n : ν) : Bool := s.hasFrom n 0

/-- ScopedSymbolTable.h:91-97, 115: `has(val)`. -/
def hasVal (s : Scopes ν V) (v : V) : Bool := s.any fun t => t.any fun e => e.2.value = v

/-- ScopedSymbolTable.h:127-134: `get(sym)`. -/
def get : Scopes ν V → ν → Res (Info V)
  | [], _ => .error (.throw "symbol not found")
  | t :: s, n => match t.find n with
    | some i => .ok i
    | none => get s n

/-- ScopedSymbolTable.h:145-150: `get(sym, tab)`. -/
def getWith (s : Scopes ν V) (n : ν) (t : Tab ν V) : Res (Info V) :=
  match t.find n with
  | some i => .ok i
  | none => s.get n

/-- ScopedSymbolTable.h:163-169: `getSymbol(val)`. -/
def getSymbol : Scopes ν V → V → Res ν
  | [], _ => .error (.throw "no symbol found for the given value")
  | t :: s, v => match List.find? (fun e => e.2.value = v) t with
    | some e => .ok e.1
    | none => getSymbol s v

/-- ScopedSymbolTable.h:198: `put(sym, info)`; `scopes.back()` of an empty vector is undefined. -/
def put (s : Scopes ν V) (n : ν) (i : Info V) : Res (Scopes ν V) :=
  match s with
  | [] => .error (.ub "back() of an empty vector")
  | t :: s => .ok (t.assign n i :: s)

/-- ScopedSymbolTable.h:208-214: `put(tab)`. -/
def putTab (s : Scopes ν V) (t : Tab ν V) : Res (Scopes ν V) :=
  if s.length = 0 then .ok [t] else t.foldlM (fun s e => put s e.1 e.2) s

/-- ScopedSymbolTable.h:221: `pushScope`. -/
def push (s : Scopes ν V) : Scopes ν V := [] :: s

/-- ScopedSymbolTable.h:237-246: `popScope`. -/
def pop (s : Scopes ν V) : Res (Tab ν V × Scopes ν V) :=
  match s with
  | [] => .error (.ub "back() of an empty vector")
  | t :: s' => .ok (t.filter (fun e => hasFrom s e.1 1), s')

/-- ScopedSymbolTable.h:254-258: `extractScope`. -/
def extract (s : Scopes ν V) : Res (Tab ν V × Scopes ν V) :=
  match s with
  | [] => .error (.ub "back() of an empty vector")
  | t :: s' => .ok (t, s')

end Scopes

/-! ### Specification: lexical scoping over call histories -/

/-- A call on the symbol table. -/
inductive Call (ν V : Type) where
  | push
  | pop
  | put (n : ν) (i : Info V)
  | putTab (t : Tab ν V)

/-- `visible h k n`: the entry found for `n` when the history `h` (latest call first) is searched backwards, ignoring everything
that happened inside the `k` scopes known to be closed later, and inside every scope that was closed again. -/
def visible : List (Call ν V) → Nat → ν → Option (Info V)
  | [], _, _ => none
  | .pop :: h, k, n => visible h (k + 1) n
  | .push :: h, k, n => visible h (k - 1) n
  | .put m i :: h, k, n => if k = 0 ∧ m = n then some i else visible h k n
  | .putTab t :: h, k, n => if k = 0 then ((t.find n).orElse fun _ => visible h k n) else visible h k n

/-- The last entry put for `n` in the innermost open scope. -/
def visibleHere : List (Call ν V) → Nat → ν → Option (Info V)
  | [], _, _ => none
  | .pop :: h, k, n => visibleHere h (k + 1) n
  | .push :: _, 0, _ => none
  | .push :: h, k + 1, n => visibleHere h k n
  | .put m i :: h, k, n => if k = 0 ∧ m = n then some i else visibleHere h k n
  | .putTab t :: h, k, n => if k = 0 then ((t.find n).orElse fun _ => visibleHere h k n) else visibleHere h k n

/-- Number of open scopes after the history (latest call first), or `none` if a scope is closed that was never opened. One scope
is open initially and is never closed. -/
def depth : List (Call ν V) → Option Nat
  | [] => some 1
  | .push :: h => (depth h).map (· + 1)
  | .pop :: h => match depth h with
    | some (d + 2) => some (d + 1)
    | _ => none
  | _ :: h => depth h

/-- Run one call on the model. -/
def Scopes.call (s : Scopes ν V) : Call ν V → Res (Scopes ν V)
  | .push => .ok s.push
  | .pop => do let (_, s) ← s.pop; .ok s
  | .put n i => s.put n i
  | .putTab t => s.putTab t

/-- Run a history (latest call first). -/
def run : List (Call ν V) → Res (Scopes ν V)
  | [] => .ok Scopes.init
  | c :: h => do
    let s ← run h
    s.call c

/-! ### Proofs -/

theorem Tab.find_assign (t : Tab ν V) (n m : ν) (i : Info V) : (t.assign n i).find m = if n = m then some i else t.find m := by
  induction t with
  | nil =>
    by_cases h : n = m
    · simp [assign, find, h]
    · simp [assign, find, List.lookup, h, show (m == n) = false by simpa using Ne.symm h]
  | cons e t ih =>
    obtain ⟨k, j⟩ := e
    simp only [assign, find] at ih ⊢
    by_cases hk : k = n
    · subst hk
      rw [if_pos rfl]
      by_cases h : k = m
      · subst h; simp
      · simp [List.lookup, h, show (m == k) = false by simpa using Ne.symm h]
    · rw [if_neg hk]
      by_cases h : m = k
      · subst h; simp [Ne.symm hk]
      · simp only [List.lookup, show (m == k) = false by simpa using h]
        exact ih

/-- Keys are unique. -/
def Tab.Uniq (t : Tab ν V) : Prop := (t.map Prod.fst).Nodup

theorem Tab.keys_assign (t : Tab ν V) (n : ν) (i : Info V) :
    (t.assign n i).map Prod.fst = if n ∈ t.map Prod.fst then t.map Prod.fst else t.map Prod.fst ++ [n] := by
  induction t with
  | nil => simp [assign]
  | cons e t ih =>
    obtain ⟨k, j⟩ := e
    simp only [assign]
    by_cases hk : k = n
    · subst hk; simp
    · simp only [if_neg hk, List.map_cons, ih, List.mem_cons, Ne.symm hk, false_or]
      split <;> simp

theorem Tab.Uniq.assign {t : Tab ν V} (h : t.Uniq) (n : ν) (i : Info V) : (t.assign n i).Uniq := by
  unfold Uniq at *
  rw [keys_assign]
  split
  · exact h
  · rw [List.nodup_append]
    exact ⟨h, by simp, fun a ha b hb => by simp at hb; subst hb; rintro rfl; contradiction⟩

theorem Tab.find_mem {t : Tab ν V} (h : t.Uniq) {n : ν} {i : Info V} : t.find n = some i ↔ (n, i) ∈ t := by
  induction t with
  | nil => simp [find]
  | cons e t ih =>
    obtain ⟨k, j⟩ := e
    have h' := List.nodup_cons.1 h
    have ih := ih h'.2
    simp only [find] at ih ⊢
    by_cases hk : n = k
    · subst hk
      simp only [List.lookup_cons_self, Option.some.injEq, List.mem_cons, Prod.mk.injEq, true_and]
      constructor
      · rintro rfl; exact .inl rfl
      · rintro (rfl | hm)
        · rfl
        · exact absurd (List.mem_map.2 ⟨_, hm, rfl⟩) h'.1
    · simp only [List.lookup, show (n == k) = false by simpa using hk, ih, List.mem_cons, Prod.mk.injEq, hk, false_and, false_or]

theorem Tab.find_filter {t : Tab ν V} (p : ν → Bool) (n : ν) :
    (Tab.find (t.filter (fun e => p e.1)) n) = if p n then t.find n else none := by
  induction t with
  | nil => simp [find]
  | cons e t ih =>
    obtain ⟨k, j⟩ := e
    simp only [find] at ih ⊢
    by_cases hk : n = k
    · subst hk
      by_cases hp : p n
      · simp [List.filter, hp]
      · simp only [List.filter, hp]; rw [ih]; simp [hp]
    · have hb : (n == k) = false := by simpa using hk
      by_cases hp : p k
      · simp only [List.filter, hp, List.lookup, hb]; exact ih
      · simp only [List.filter, hp, List.lookup, hb]; exact ih

/-- The entry `get` finds, as an option. -/
def Scopes.look : Scopes ν V → ν → Option (Info V)
  | [], _ => none
  | t :: s, n => (t.find n).orElse fun _ => look s n

theorem Scopes.get_eq (s : Scopes ν V) (n : ν) :
    s.get n = match s.look n with | some i => .ok i | none => .error (.throw "symbol not found") := by
  induction s with
  | nil => rfl
  | cons t s ih =>
    simp only [get, look]
    cases t.find n <;> simp [ih]

theorem Scopes.hasFrom_eq (s : Scopes ν V) (n : ν) (k : Nat) : s.hasFrom n k = (Scopes.look (s.drop k) n).isSome := by
  unfold hasFrom
  induction s.drop k with
  | nil => rfl
  | cons t s ih => simp only [List.any_cons, look, ih]; cases t.find n <;> simp

theorem putTab_eq (t : Tab ν V) (u : Tab ν V) (s : Scopes ν V) :
    Scopes.putTab (u :: s) t = .ok (t.foldl (fun u e => u.assign e.1 e.2) u :: s) := by
  simp only [Scopes.putTab, List.length_cons, Nat.succ_ne_zero, if_false]
  induction t generalizing u with
  | nil => rfl
  | cons e t ih =>
    rw [List.foldlM_cons, List.foldl_cons, ← ih]
    rfl

theorem find_foldl (t u : Tab ν V) (hu : t.Uniq) (n : ν) :
    (t.foldl (fun u e => u.assign e.1 e.2) u).find n = (t.find n).orElse fun _ => u.find n := by
  induction t generalizing u with
  | nil => simp [Tab.find]
  | cons e t ih =>
    obtain ⟨k, j⟩ := e
    have h' := List.nodup_cons.1 hu
    rw [List.foldl_cons, ih _ h'.2, Tab.find_assign]
    by_cases hk : k = n
    · subst hk
      have : Tab.find t k = none := by
        cases hf : Tab.find t k with
        | none => rfl
        | some i => exact absurd (List.mem_map.2 ⟨_, (Tab.find_mem h'.2).1 hf, rfl⟩) h'.1
      rw [this]; simp [Tab.find]
    · simp [hk, Tab.find, List.lookup, show (n == k) = false by simpa using Ne.symm hk]

theorem uniq_foldl (t u : Tab ν V) (hu : u.Uniq) : Tab.Uniq (t.foldl (fun u e => u.assign e.1 e.2) u) := by
  induction t generalizing u with
  | nil => exact hu
  | cons e t ih => exact ih _ (hu.assign _ _)

/-- All tables passed to `putTab` are maps (every C++ `unordered_map` is). -/
def MapArgs (h : List (Call ν V)) : Prop := ∀ t, Call.putTab t ∈ h → t.Uniq

/-- Invariant of a run: as many scopes as open, each a map, and lookups agree with the history. -/
theorem run_ok (h : List (Call ν V)) (hm : MapArgs h) (d : Nat) (hd : depth h = some d) :
    Res.Ok (run h) fun s => s.length = d ∧ 1 ≤ d ∧ (∀ t ∈ s, t.Uniq) ∧
      (∀ k n, k < d → Scopes.look (s.drop k) n = visible h k n) ∧
      ∀ k n, (s.getD k []).find n = visibleHere h k n := by
  induction h generalizing d with
  | nil =>
    cases hd
    refine Res.ok_iff.2 ⟨rfl, Nat.le_refl _, by simp [Scopes.init, Tab.Uniq], ?_, ?_⟩
    · intro k n hk
      have : k = 0 := by omega
      subst this; simp [Scopes.init, Scopes.look, visible, Tab.find]
    · intro k n; cases k <;> simp [Scopes.init, visibleHere, Tab.find]
  | cons c h ih =>
    have ih := ih (fun t ht => hm t (List.mem_cons_of_mem _ ht))
    cases c with
    | push =>
      simp only [depth, Option.map_eq_some_iff] at hd
      obtain ⟨e, he, rfl⟩ := hd
      refine (ih e he).bind fun s ⟨h1, h2, h3, h4, h5⟩ => ?_
      refine Res.ok_iff.2 ⟨by simp [Scopes.push, h1], by omega, by simpa [Scopes.push, Tab.Uniq] using h3, fun k n hk => ?_, fun k n => ?_⟩
      · simp only [visible, Scopes.push]
        cases k with
        | zero => simpa [Scopes.look, Tab.find] using h4 0 n (by omega)
        | succ k => simpa using h4 k n (by omega)
      · cases k with
        | zero => simp [Scopes.push, visibleHere, Tab.find]
        | succ k => simpa [Scopes.push, visibleHere] using h5 k n
    | pop =>
      simp only [depth] at hd
      split at hd
      next e he =>
        cases hd
        refine (ih _ he).bind fun s ⟨h1, h2, h3, h4, h5⟩ => ?_
        cases s with
        | nil => simp at h1
        | cons t s =>
          simp only [Scopes.call, Scopes.pop, Res.ok_bind]
          refine Res.ok_iff.2 ⟨by simpa using h1, by omega, fun t ht => h3 t (List.mem_cons_of_mem _ ht), fun k n hk => ?_, fun k n => ?_⟩
          · simpa [visible] using h4 (k + 1) n (by omega)
          · simpa [visibleHere] using h5 (k + 1) n
      next => cases hd
    | put m i =>
      simp only [depth] at hd
      refine (ih d hd).bind fun s ⟨h1, h2, h3, h4, h5⟩ => ?_
      cases s with
      | nil => simp only [List.length_nil] at h1; omega
      | cons t s =>
        simp only [Scopes.call, Scopes.put]
        refine Res.ok_iff.2 ⟨by simpa using h1, h2, ?_, fun k n hk => ?_, fun k n => ?_⟩
        · intro u hu
          rcases List.mem_cons.1 hu with rfl | hu
          · exact (h3 t (by simp)).assign _ _
          · exact h3 u (by simp [hu])
        · simp only [visible]
          cases k with
          | zero =>
            have := h4 0 n (by omega)
            simp only [List.drop_zero, Scopes.look] at this ⊢
            rw [Tab.find_assign]
            by_cases hn : m = n
            · simp [hn]
            · rw [if_neg hn, this, if_neg (by simp [hn])]
          | succ k => simpa using h4 (k + 1) n hk
        · simp only [visibleHere]
          cases k with
          | zero =>
            have := h5 0 n
            simp only [List.getD_cons_zero] at this ⊢
            rw [Tab.find_assign, this]
            by_cases hn : m = n <;> simp [hn]
          | succ k => simpa using h5 (k + 1) n
    | putTab u =>
      simp only [depth] at hd
      refine (ih d hd).bind fun s ⟨h1, h2, h3, h4, h5⟩ => ?_
      have hu : u.Uniq := hm u (by simp)
      cases s with
      | nil => simp only [List.length_nil] at h1; omega
      | cons t s =>
        simp only [Scopes.call, putTab_eq]
        refine Res.ok_iff.2 ⟨by simpa using h1, h2, ?_, fun k n hk => ?_, fun k n => ?_⟩
        · intro x hx
          rcases List.mem_cons.1 hx with rfl | hx
          · exact uniq_foldl _ _ (h3 t (by simp))
          · exact h3 x (by simp [hx])
        · simp only [visible]
          cases k with
          | zero =>
            have := h4 0 n (by omega)
            simp only [List.drop_zero, Scopes.look] at this ⊢
            rw [find_foldl _ _ hu, if_pos trivial, ← this]
            cases u.find n <;> simp
          | succ k => simpa using h4 (k + 1) n hk
        · simp only [visibleHere]
          cases k with
          | zero =>
            have := h5 0 n
            simp only [List.getD_cons_zero] at this ⊢
            rw [find_foldl _ _ hu, this, if_pos trivial]
          | succ k => simpa using h5 (k + 1) n

/-- **C28 (lookup).** After every history of calls that never closes a scope it did not open, `get` returns the entry put last for
the name in the innermost open scope that has one, and throws if no open scope has one; `has` tells whether it would throw. -/
theorem C28_lookup (h : List (Call ν V)) (hm : MapArgs h) (hd : (depth h).isSome) :
    Res.Ok (run h) fun s => ∀ n,
      (∀ i, visible h 0 n = some i → s.get n = .ok i) ∧ (visible h 0 n = none → Res.Throws (s.get n)) ∧
      (s.has n = true ↔ (visible h 0 n).isSome) := by
  obtain ⟨d, hd⟩ := Option.isSome_iff_exists.1 hd
  refine (run_ok h hm d hd).mono fun s ⟨_, h2, _, h4, _⟩ n => ?_
  have e := h4 0 n (by omega)
  rw [List.drop_zero] at e
  refine ⟨fun i hi => ?_, fun hn => ?_, ?_⟩
  · rw [Scopes.get_eq, e, hi]
  · rw [Scopes.get_eq, e, hn]; exact ⟨_, rfl⟩
  · rw [Scopes.has, Scopes.hasFrom_eq, List.drop_zero, e]

/-- **C28 (closing a scope).** Closing the innermost scope reports, for exactly the names that are visible outside of it, the entry
put last inside it. -/
theorem C28_pop_reports (h : List (Call ν V)) (hm : MapArgs h) (hd : (depth (.pop :: h)).isSome) :
    Res.Ok (do let s ← run h; s.pop) fun p => p.1.Uniq ∧ ∀ n i,
      ((n, i) ∈ p.1 ↔ visibleHere h 0 n = some i ∧ (visible (.pop :: h) 0 n).isSome) := by
  obtain ⟨d, hd⟩ := Option.isSome_iff_exists.1 hd
  simp only [depth] at hd
  split at hd
  next e he =>
    cases hd
    refine (run_ok h hm _ he).bind fun s ⟨h1, h2, h3, h4, h5⟩ => ?_
    cases s with
    | nil => simp at h1
    | cons t s =>
      refine Res.ok_iff.2 ?_
      have hu : Tab.Uniq (t.filter fun e => Scopes.hasFrom (t :: s) e.1 1) := by
        have := h3 t (by simp)
        exact List.Sublist.nodup (List.Sublist.map _ List.filter_sublist) this
      refine ⟨hu, fun n i => ?_⟩
      rw [← Tab.find_mem hu, Tab.find_filter (fun n => Scopes.hasFrom (t :: s) n 1)]
      have e5 := h5 0 n
      have e4 := h4 1 n (by omega)
      simp only [List.getD_cons_zero] at e5
      rw [← e5, show visible (.pop :: h) 0 n = visible h 1 n from rfl, ← e4, Scopes.hasFrom_eq]
      split <;> simp_all
  next => cases hd

/-- Calls between a `pushScope` and its `popScope`: they never close the scope that was open before (latest call first). -/
def insideOf : List (Call ν V) → Option Nat
  | [] => some 0
  | .push :: h => (insideOf h).map (· + 1)
  | .pop :: h => match insideOf h with
    | some (d + 1) => some d
    | _ => none
  | _ :: h => insideOf h

theorem runFrom_inside (s : Scopes ν V) (h : List (Call ν V)) (d : Nat) (hd : insideOf h = some d) (s0 : Tab ν V) :
    Res.Ok (h.foldrM (fun c s => Scopes.call s c) (s0 :: s)) fun s' => ∃ ts : List (Tab ν V), s' = ts ++ s ∧ ts.length = d + 1 := by
  induction h generalizing d with
  | nil => cases hd; exact ⟨_, rfl, [s0], rfl, rfl⟩
  | cons c h ih =>
    rw [List.foldrM_cons]
    cases c with
    | push =>
      simp only [insideOf, Option.map_eq_some_iff] at hd
      obtain ⟨e, he, rfl⟩ := hd
      refine (ih e he).bind fun s' ⟨ts, h1, h2⟩ => ?_
      exact ⟨_, rfl, [] :: ts, by simp [Scopes.push, h1], by simp [h2]⟩
    | pop =>
      simp only [insideOf] at hd
      split at hd
      next e he =>
        cases hd
        refine (ih _ he).bind fun s' ⟨ts, h1, h2⟩ => ?_
        cases ts with
        | nil => simp at h2
        | cons t ts => exact ⟨_, by rw [h1]; rfl, ts, rfl, by simpa using h2⟩
      next => cases hd
    | put m i =>
      simp only [insideOf] at hd
      refine (ih d hd).bind fun s' ⟨ts, h1, h2⟩ => ?_
      cases ts with
      | nil => simp at h2
      | cons t ts => exact ⟨_, by rw [h1]; rfl, t.assign m i :: ts, rfl, by simpa using h2⟩
    | putTab u =>
      simp only [insideOf] at hd
      refine (ih d hd).bind fun s' ⟨ts, h1, h2⟩ => ?_
      cases ts with
      | nil => simp at h2
      | cons t ts =>
        refine ⟨_, by rw [h1]; exact putTab_eq u t (ts ++ s), _ :: ts, rfl, by simpa using h2⟩

/-- **C28 (restoration).** Opening a scope, any calls inside it, and closing it leave the table exactly as it was. -/
theorem C28_restores (s : Scopes ν V) (h : List (Call ν V)) (hd : insideOf h = some 0) :
    Res.Ok (do let s' ← h.foldrM (fun c s => Scopes.call s c) s.push; s'.pop) fun p => p.2 = s := by
  refine (runFrom_inside s h 0 hd []).bind fun s' ⟨ts, h1, h2⟩ => ?_
  match ts, h2 with
  | [t], _ => subst h1; exact ⟨_, rfl, rfl⟩

/-- **C28 (values).** `getSymbol` of a value returns a name bound to it in some open scope; it throws iff no open scope binds the
value, that is iff `has(value)` is false. -/
theorem C28_getSymbol (s : Scopes ν V) (v : V) :
    (s.hasVal v = true → Res.Ok (s.getSymbol v) fun n => ∃ t ∈ s, ∃ i, (n, i) ∈ t ∧ i.value = v) ∧
    (s.hasVal v = false → Res.Throws (s.getSymbol v)) := by
  induction s with
  | nil => exact ⟨by simp [Scopes.hasVal], fun _ => ⟨_, rfl⟩⟩
  | cons t s ih =>
    simp only [Scopes.getSymbol]
    cases hf : List.find? (fun e => decide (e.2.value = v)) t with
    | some e =>
      have h1 := List.find?_some hf
      have h2 := List.mem_of_find?_eq_some hf
      refine ⟨fun _ => ⟨_, rfl, t, by simp, e.2, h2, by simpa using h1⟩, fun h => ?_⟩
      simp only [Scopes.hasVal, List.any_cons, Bool.or_eq_false_iff] at h
      have := List.any_eq_false.1 h.1 e h2
      simp_all
    | none =>
      have h1 : t.any (fun e => decide (e.2.value = v)) = false := by
        rw [List.find?_eq_none] at hf
        exact List.any_eq_false.2 fun e he => by simpa using hf e he
      have e : Scopes.hasVal (t :: s) v = Scopes.hasVal s v := by
        simp only [Scopes.hasVal, List.any_cons, h1, Bool.false_or]
      rw [e]
      exact ⟨fun h => (ih.1 h).mono fun n ⟨u, hu, hi⟩ => ⟨u, by simp [hu], hi⟩, ih.2⟩

/-! ### Examples -/

/-- x=1; { x=2; y=3; { x=4 } … } : inside the block x is 2, after it x is 1 and y unknown; the block reports x=2. -/
def exHist : List (Call String Nat) :=
  [.pop, .put "x" ⟨4, false⟩, .push, .put "y" ⟨3, false⟩, .put "x" ⟨2, false⟩, .push, .put "x" ⟨1, false⟩]

example : depth exHist = some 2 ∧ visible exHist 0 "x" = some ⟨2, false⟩ ∧ visible (.pop :: exHist) 0 "x" = some ⟨1, false⟩ ∧
    visible (.pop :: exHist) 0 "y" = none := by decide

example : (do let s ← run exHist; let (t, s) ← s.pop; let i ← s.get "x"; .ok (t, i)) = .ok ([("x", ⟨2, false⟩)], ⟨1, false⟩) := rfl

end Verif.Front

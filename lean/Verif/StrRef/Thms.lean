/-
  Model of src/util/StringRefCount.{h,cpp} and of the string variants of IncRef.h and DecRef.h, and property C351.

  The methods hold a mutex, so any concurrent use is a sequence of atomic calls.  `new` stands for a kernel or the generated
  code allocating a string (`new char[]`), whose address may be one that was freed before.  Simplification: counters do not
  wrap.
-/
namespace Verif.StrRef

/-- Calls, by any threads, in the order in which they obtain the mutex; strings are identified by their address. -/
inductive Ev where
  | new (p : Nat)
  | inc (p : Nat)
  | dec (p : Nat)
  deriving DecidableEq, Repr

/-! ### Specification -/

/-- The number of references to the string at `p` after the calls: one for a new string, one more per `inc`, one less per
`dec`. -/
def refs (p : Nat) : List Ev → Nat
  | [] => 0
  | .new q :: h => if q = p then 1 else refs p h
  | .inc q :: h => if q = p then refs p h + 1 else refs p h
  | .dec q :: h => if q = p then refs p h - 1 else refs p h

/-- Histories (latest call first) of programs that use strings correctly: the allocator returns only addresses that are not
in use, and references are duplicated and given up only by those who have one. C26 says that compiled programs do so. -/
def Legal : List Ev → Prop
  | [] => True
  | .new p :: h => Legal h ∧ refs p h = 0
  | .inc p :: h => Legal h ∧ 0 < refs p h
  | .dec p :: h => Legal h ∧ 0 < refs p h

/-- The number of strings allocated at `p`. -/
def news (p : Nat) (h : List Ev) : Nat := h.count (.new p)

/-! ### Model -/

/-- `stringRefCount` (StringRefCount.h) and the addresses passed to `delete[]`, latest first. -/
structure Cnt where
  tab : Nat → Option Nat
  freed : List Nat

/-- StringRefCount.cpp:19-32 `inc`. -/
def Cnt.inc (c : Cnt) (p : Nat) : Cnt :=
  match c.tab p with
  | some n => { c with tab := fun q => if q = p then some (n + 1) else c.tab q }
  | none => { c with tab := fun q => if q = p then some 2 else c.tab q }

/-- StringRefCount.cpp:34-56 `dec`. -/
def Cnt.dec (c : Cnt) (p : Nat) : Cnt × Bool :=
  match c.tab p with
  | some n =>
      if n - 1 = 0 then ({ c with tab := fun q => if q = p then none else c.tab q }, false)
      else ({ c with tab := fun q => if q = p then some (n - 1) else c.tab q }, true)
  | none => (c, false)

/-- IncRef.h:34-39, DecRef.h:35-42. -/
def step (c : Cnt) : Ev → Cnt
  | .new _ => c
  | .inc p => c.inc p
  | .dec p =>
      let (c, keep) := c.dec p
      if keep then c else { c with freed := p :: c.freed }

/-- All calls of a history (latest first). -/
def run : List Ev → Cnt
  | [] => ⟨fun _ => none, []⟩
  | e :: h => step (run h) e

/-! ### C351 -/

structure Inv (h : List Ev) (c : Cnt) : Prop where
  none' : ∀ p, c.tab p = none → refs p h ≤ 1
  some' : ∀ p n, c.tab p = some n → n = refs p h ∧ 0 < n
  freed : ∀ p, c.freed.count p + (if 0 < refs p h then 1 else 0) = news p h

theorem inv_run : ∀ h : List Ev, Legal h → Inv h (run h)
  | [], _ => ⟨by simp [refs], by simp [run], by simp [refs, run, news]⟩
  | .new p :: h, hl => by
      have ih := inv_run h hl.1
      have h0 := hl.2
      refine ⟨fun q hq => ?_, fun q n hq => ?_, fun q => ?_⟩
      · simp only [refs]; split
        · omega
        · exact ih.none' q hq
      · have := ih.some' q n hq
        simp only [refs]; split
        · next e => subst e; omega
        · exact this
      · have := ih.freed q
        simp only [run, step, refs, news, List.count_cons]
        by_cases e : p = q
        · subst e; simp [news, h0] at this ⊢; omega
        · have e' : ¬ (Ev.new p == Ev.new q) = true := by simpa using e
          simp [e, news] at this ⊢; omega
  | .inc p :: h, hl => by
      have ih := inv_run h hl.1
      have h0 := hl.2
      have hn : ∀ q, news q (.inc p :: h) = news q h := fun q => by simp [news]
      have hf : (run (.inc p :: h)).freed = (run h).freed := by
        simp only [run, step, Cnt.inc]; split <;> rfl
      refine ⟨fun q hq => ?_, fun q n hq => ?_, fun q => ?_⟩
      · simp only [run, step, Cnt.inc] at hq
        simp only [refs]
        split
        · next e => subst e; split at hq <;> simp at hq
        · next e =>
            have e' : ¬ q = p := fun h => e h.symm
            split at hq <;> simp [e'] at hq <;> exact ih.none' q hq
      · simp only [run, step, Cnt.inc] at hq
        simp only [refs]
        split
        · next e =>
            subst e
            split at hq
            · next m hm => have := ih.some' _ _ hm; simp at hq; omega
            · next hm => have := ih.none' _ hm; simp at hq; omega
        · next e =>
            have e' : ¬ q = p := fun h => e h.symm
            split at hq <;> simp [e'] at hq <;> exact ih.some' q n hq
      · have := ih.freed q
        rw [hf, hn, ← this]
        simp only [refs]
        split
        · next e => subst e; simp [h0]
        · rfl
  | .dec p :: h, hl => by
      have ih := inv_run h hl.1
      have h0 := hl.2
      have hn : ∀ q, news q (.dec p :: h) = news q h := fun q => by simp [news]
      cases hp : (run h).tab p with
      | none =>
          have h1 := ih.none' p hp
          have er : run (.dec p :: h) = { run h with freed := p :: (run h).freed } := by
            simp [run, step, Cnt.dec, hp]
          refine ⟨fun q hq => ?_, fun q n hq => ?_, fun q => ?_⟩
          · rw [er] at hq
            have := ih.none' q hq
            simp only [refs]; split <;> omega
          · rw [er] at hq
            have := ih.some' q n hq
            simp only [refs]; split
            · next e => subst e; simp [hp] at hq
            · exact this
          · have := ih.freed q
            rw [er, hn, ← this]
            simp only [refs, List.count_cons]
            by_cases e : p = q
            · subst e
              have : refs p h = 1 := by omega
              simp [this]
            · simp [e]
      | some n =>
          have h1 := ih.some' p n hp
          by_cases hz : n - 1 = 0
          · have er : run (.dec p :: h) =
                ⟨fun q => if q = p then none else (run h).tab q, p :: (run h).freed⟩ := by
              simp [run, step, Cnt.dec, hp, hz]
            refine ⟨fun q hq => ?_, fun q m hq => ?_, fun q => ?_⟩
            · rw [er] at hq
              simp only [refs]; split
              · next e => subst e; omega
              · next e =>
                  have e' : ¬ q = p := fun h => e h.symm
                  simp [e'] at hq; exact ih.none' q hq
            · rw [er] at hq
              simp only [refs]; split
              · next e => subst e; simp at hq
              · next e =>
                  have e' : ¬ q = p := fun h => e h.symm
                  simp [e'] at hq; exact ih.some' q m hq
            · have := ih.freed q
              rw [er, hn, ← this]
              simp only [refs, List.count_cons]
              by_cases e : p = q
              · subst e
                have : refs p h = 1 := by omega
                simp [this]
              · simp [e]
          · have er : run (.dec p :: h) =
                ⟨fun q => if q = p then some (n - 1) else (run h).tab q, (run h).freed⟩ := by
              simp [run, step, Cnt.dec, hp, hz]
            refine ⟨fun q hq => ?_, fun q m hq => ?_, fun q => ?_⟩
            · rw [er] at hq
              simp only [refs]; split
              · next e => subst e; simp at hq
              · next e =>
                  have e' : ¬ q = p := fun h => e h.symm
                  simp [e'] at hq; exact ih.none' q hq
            · rw [er] at hq
              simp only [refs]; split
              · next e => subst e; simp at hq; omega
              · next e =>
                  have e' : ¬ q = p := fun h => e h.symm
                  simp [e'] at hq; exact ih.some' q m hq
            · have := ih.freed q
              rw [er, hn, ← this]
              simp only [refs]
              by_cases e : p = q
              · subst e
                have : 0 < refs p h - 1 := by omega
                simp [this, h0]
              · simp [e]

/-- **C351.** After every correct history, however the calls of several threads are interleaved: of the strings allocated at
an address all but the one in use, if any, have been freed, each exactly once. -/
theorem C351_freed (h : List Ev) (hl : Legal h) (p : Nat) :
    (run h).freed.count p = if 0 < refs p h then news p h - 1 else news p h := by
  have := (inv_run h hl).freed p
  split <;> simp_all <;> omega

/-- **C351.** A call frees a string if and only if it gives up the last reference to it; no other call frees anything. -/
theorem C351_last (h : List Ev) (e : Ev) (hl : Legal (e :: h)) :
    (run (e :: h)).freed = match e with
      | .dec p => if refs p h = 1 then p :: (run h).freed else (run h).freed
      | _ => (run h).freed := by
  cases e with
  | new p => rfl
  | inc p => simp only [run, step, Cnt.inc]; split <;> rfl
  | dec p =>
      have ih := inv_run h hl.1
      have h0 := hl.2
      cases hp : (run h).tab p with
      | none =>
          have h1 := ih.none' p hp
          have : refs p h = 1 := by omega
          simp [run, step, Cnt.dec, hp, this]
      | some n =>
          have h1 := ih.some' p n hp
          by_cases hz : n - 1 = 0
          · have : refs p h = 1 := by omega
            simp [run, step, Cnt.dec, hp, hz, this]
          · have : refs p h ≠ 1 := by omega
            simp [run, step, Cnt.dec, hp, hz, this]

/-- **C351.** The counter of a string that is not in use any more is forgotten, so that a new string at the same address
starts with one reference. -/
theorem C351_forgotten (h : List Ev) (hl : Legal h) (p : Nat) (h0 : refs p h = 0) : (run h).tab p = none := by
  cases hp : (run h).tab p with
  | none => rfl
  | some n => have := (inv_run h hl).some' p n hp; omega

/-- Two strings, one after the other, at one address, and another one in between (latest call first). -/
def exHist : List Ev := [.dec 1, .inc 1, .new 1, .dec 1, .dec 2, .dec 1, .inc 1, .new 2, .new 1]
example : Legal exHist := by simp [exHist, Legal, refs]
example : (run exHist).freed = [1, 2] ∧ refs 1 exHist = 1 := by decide

end Verif.StrRef

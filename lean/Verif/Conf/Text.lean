/-
  Arguments of scripts, kernel extensions and the library directory (C336-C339).
-/
import Verif.Conf.Model
import Mathlib.Data.List.Forall2
import Mathlib.Tactic.NormNum

namespace Verif.Conf

/-! ### Specification -/

/-- `ps` are the arguments that the texts `ts` stand for: each text is `name=value`, and the name contains no `=`. -/
def Stands (ts : List (List Char)) (ps : List (List Char × List Char)) : Prop :=
  List.Forall₂ (fun t p => t = p.1 ++ '=' :: p.2 ∧ '=' ∉ p.1) ts ps

/-- A text that stands for an integer of 64 bits: white space, an optional sign and decimal digits. -/
def IntText (t : List Char) (n : Int) : Prop :=
  ∃ ws sg ds, t = ws ++ sg ++ ds ∧ (∀ c ∈ ws, c ∈ [' ', '\t', '\n', '\x0b', '\x0c', '\r']) ∧ (sg = [] ∨ sg = ['+'] ∨ sg = ['-']) ∧
    ds ≠ [] ∧ (∀ c ∈ ds, c.isDigit = true) ∧ n = (if sg = ['-'] then -1 else 1) * (Nat.ofDigitChars 10 ds 0 : Int) ∧ -2 ^ 63 ≤ n ∧ n < 2 ^ 63

/-- The usual way to write an integer. -/
def intDigits (n : Int) : List Char := if n < 0 then '-' :: Nat.toDigits 10 n.natAbs else Nat.toDigits 10 n.natAbs

/-! ### Lemmas -/

theorem splitFirst_some (ch : Char) (t : List Char) : ∀ (a b : List Char), splitFirst ch t = some (a, b) ↔ t = a ++ ch :: b ∧ ch ∉ a := by
  induction t with
  | nil => intro a b; simp [splitFirst]
  | cons x r ih =>
    intro a b
    unfold splitFirst
    by_cases h : x = ch
    · subst h
      rw [if_pos rfl]
      constructor
      · intro e; cases e; simp
      · rintro ⟨e, hn⟩
        cases a with
        | nil => simp at e; simp [e]
        | cons y a => simp at e hn; exact absurd e.1 hn.1
    · rw [if_neg h]
      constructor
      · intro e
        simp only [Option.map_eq_some_iff, Prod.mk.injEq, Prod.exists] at e
        obtain ⟨a', b', e, rfl, rfl⟩ := e
        obtain ⟨rfl, hn⟩ := (ih a' b').1 e
        exact ⟨rfl, by simp [Ne.symm h, hn]⟩
      · rintro ⟨e, hn⟩
        cases a with
        | nil => simp at e; exact absurd e.1 h
        | cons y a =>
          simp only [List.cons_append, List.cons.injEq] at e
          obtain ⟨rfl, e⟩ := e
          rw [(ih a b).2 ⟨e, fun hm => hn (List.mem_cons_of_mem _ hm)⟩]
          rfl

theorem splitFirst_none (ch : Char) (t : List Char) : splitFirst ch t = none ↔ ch ∉ t := by
  induction t with
  | nil => simp [splitFirst]
  | cons x r ih =>
    unfold splitFirst
    by_cases h : x = ch
    · subst h; simp
    · rw [if_neg h]; simp [ih, Ne.symm h]

theorem parse_iff (ts : List (List Char)) : ∀ (m m' : List (List Char × List Char)), (m.map (·.1)).Nodup →
    (parseScriptArgs ts m = some m' ↔ ∃ ps, m' = m ++ ps ∧ Stands ts ps ∧ (m'.map (·.1)).Nodup) := by
  induction ts with
  | nil =>
    intro m m' hm
    simp only [parseScriptArgs, Option.some.injEq]
    constructor
    · rintro rfl; exact ⟨[], by simp, List.Forall₂.nil, hm⟩
    · rintro ⟨ps, rfl, h, -⟩
      cases h; simp
  | cons t r ih =>
    intro m m' hm
    simp only [parseScriptArgs]
    cases hs : splitFirst '=' t with
    | none =>
      simp only [reduceCtorEq, false_iff]
      rintro ⟨ps, -, h, -⟩
      cases h with
      | cons h _ =>
        exact (splitFirst_none '=' t).1 hs (by rw [h.1]; simp)
    | some q =>
      obtain ⟨n, v⟩ := q
      have hq := (splitFirst_some '=' t n v).1 hs
      simp only
      by_cases hd : m.any (fun x => decide (x.1 = n)) = true
      · rw [if_pos hd]
        simp only [reduceCtorEq, false_iff]
        rintro ⟨ps, rfl, h, hn⟩
        cases h with
        | @cons _ p _ ps h h' =>
          have e := (splitFirst_some '=' t p.1 p.2).2 h
          rw [hs] at e
          cases e
          simp only [List.any_eq_true, decide_eq_true_eq] at hd
          obtain ⟨x, hx, e⟩ := hd
          simp only [List.map_append, List.map_cons] at hn
          have := (List.nodup_append.1 hn).2.2 x.1 (List.mem_map_of_mem hx) p.1 (by simp)
          exact this e
      · rw [if_neg hd]
        have hd' : ∀ x ∈ m, x.1 ≠ n := by
          intro x hx e
          exact hd (List.any_eq_true.2 ⟨x, hx, by simpa using e⟩)
        have hm' : ((m ++ [(n, v)]).map (·.1)).Nodup := by
          rw [List.map_append, List.nodup_append]
          refine ⟨hm, by simp, ?_⟩
          intro a ha b hb
          simp only [List.mem_map] at ha
          obtain ⟨x, hx, rfl⟩ := ha
          simp only [List.map_cons, List.map_nil, List.mem_singleton] at hb
          subst hb
          exact hd' x hx
        rw [ih _ _ hm']
        constructor
        · rintro ⟨ps, rfl, h, hn⟩
          exact ⟨(n, v) :: ps, by simp, .cons hq h, hn⟩
        · rintro ⟨ps, rfl, h, hn⟩
          cases h with
          | @cons _ p _ ps h h' =>
            have e := (splitFirst_some '=' t p.1 p.2).2 h
            rw [hs] at e
            cases e
            exact ⟨ps, by simp, h', hn⟩

theorem stands_append_left {a b : List (List Char)} {p q : List (List Char × List Char)} (h : Stands a p) (h' : Stands b q) : Stands (a ++ b) (p ++ q) :=
  List.rel_append h h'

/-- **C336.** Script arguments: the texts on the command line, before and after `--args`, are accepted exactly if each of them is of the form `name=value` and no name occurs twice, among all of them.
The script then gets exactly these names and values; a value is everything behind the first `=`. -/
theorem C336_script_arguments (positional args : List (List Char)) (m : List (List Char × List Char)) :
    scriptArgs positional args = some m ↔ Stands (positional ++ args) m ∧ (m.map (·.1)).Nodup := by
  unfold scriptArgs
  simp only [Option.bind_eq_some_iff]
  constructor
  · rintro ⟨m1, h1, h2⟩
    obtain ⟨ps, rfl, s1, n1⟩ := (parse_iff positional [] m1 (by simp)).1 h1
    obtain ⟨qs, rfl, s2, n2⟩ := (parse_iff args _ m n1).1 h2
    exact ⟨by simpa using stands_append_left s1 s2, n2⟩
  · rintro ⟨s, n⟩
    obtain ⟨s1, s2⟩ : Stands positional (m.take positional.length) ∧ Stands args (m.drop positional.length) := by
      have hlen : positional.length ≤ m.length := by
        have := List.Forall₂.length_eq s
        simp at this; omega
      have h1 := List.forall₂_take positional.length s
      have h2 := List.forall₂_drop positional.length s
      simp only [List.take_left', List.drop_left'] at h1 h2
      exact ⟨h1, h2⟩
    have n' := n
    rw [← List.take_append_drop positional.length m, List.map_append, List.nodup_append] at n'
    refine ⟨m.take positional.length, (parse_iff positional [] _ (by simp)).2 ⟨_, by simp, s1, n'.1⟩, ?_⟩
    exact (parse_iff args _ m n'.1).2 ⟨_, (List.take_append_drop _ _).symm, s2, n⟩

theorem isSpace_iff (c : Char) : isSpace c = true ↔ c ∈ [' ', '\t', '\n', '\x0b', '\x0c', '\r'] := by
  simp only [isSpace, Bool.or_eq_true, decide_eq_true_eq, Bool.and_eq_true, List.mem_cons, List.not_mem_nil, or_false]
  constructor
  · rintro (rfl | ⟨h1, h2⟩)
    · simp
    · have : c.toNat = 9 ∨ c.toNat = 10 ∨ c.toNat = 11 ∨ c.toNat = 12 ∨ c.toNat = 13 := by omega
      rcases this with h | h | h | h | h <;> rw [← Char.ofNat_toNat c, h] <;> decide
  · rintro (rfl | rfl | rfl | rfl | rfl | rfl) <;> decide

theorem isDigit_iff (c : Char) : c.isDigit = true ↔ '0'.toNat ≤ c.toNat ∧ c.toNat ≤ '9'.toNat := by
  simp only [Char.isDigit, Bool.and_eq_true, decide_eq_true_eq]
  rfl

theorem span_all (ds r : List Char) (h : ∀ c ∈ ds, c.isDigit = true) (hr : ∀ c ∈ r.head?, c.isDigit = false) :
    spanDigits (ds ++ r) = (ds.map fun c => c.toNat - '0'.toNat, r) := by
  induction ds with
  | nil =>
    cases r with
    | nil => rfl
    | cons c r =>
      have := hr c (by simp)
      simp only [List.nil_append, spanDigits]
      rw [if_neg (by rw [← isDigit_iff, this]; decide)]
      rfl
  | cons c ds ih =>
    simp only [List.cons_append, spanDigits]
    rw [if_pos ((isDigit_iff c).1 (h c (by simp))), ih fun d hd => h d (by simp [hd])]
    rfl

theorem span_inv (t : List Char) : ∃ ds, t = ds ++ (spanDigits t).2 ∧ (∀ c ∈ ds, c.isDigit = true) ∧ (spanDigits t).1 = ds.map fun c => c.toNat - '0'.toNat := by
  induction t with
  | nil => exact ⟨[], rfl, by simp, rfl⟩
  | cons c r ih =>
    obtain ⟨ds, e, hd, hm⟩ := ih
    simp only [spanDigits]
    split
    · rename_i h
      refine ⟨c :: ds, ?_, ?_, ?_⟩
      · show c :: r = c :: (ds ++ (spanDigits r).2)
        rw [← e]
      · simp only [List.mem_cons, forall_eq_or_imp]
        exact ⟨(isDigit_iff c).2 h, hd⟩
      · simp only [List.map_cons, hm]
    · exact ⟨[], rfl, by simp, rfl⟩

theorem fold_digits (ds : List Char) (a : Nat) : (ds.map fun c => c.toNat - '0'.toNat).foldl (fun a d => 10 * a + d) a = Nat.ofDigitChars 10 ds a := by
  induction ds generalizing a with
  | nil => rfl
  | cons c ds ih =>
    simp only [List.map_cons, List.foldl_cons, ih]
    rfl

/-- The sign of a text without leading white space. -/
def signed : List Char → Int × List Char
  | '-' :: r => (-1, r)
  | '+' :: r => (1, r)
  | s => (1, s)

theorem stoll_eq (s : List Char) : stoll s =
    match spanDigits (signed (s.dropWhile isSpace)).2 with
    | ([], _) => none
    | (ds, rest) =>
      let n : Int := (signed (s.dropWhile isSpace)).1 * (ds.foldl (fun a d => 10 * a + d) 0 : Nat)
      if -9223372036854775808 ≤ n ∧ n ≤ 9223372036854775807 then some (n, rest) else none := by
  rfl

theorem signed_eq (t : List Char) : ∃ sg, t = sg ++ (signed t).2 ∧ (sg = [] ∨ sg = ['+'] ∨ sg = ['-']) ∧ (signed t).1 = if sg = ['-'] then -1 else 1 := by
  unfold signed
  split
  · exact ⟨['-'], rfl, by simp, rfl⟩
  · exact ⟨['+'], rfl, by simp, rfl⟩
  · exact ⟨[], rfl, by simp, rfl⟩

theorem stoll_iff (t : List Char) (n : Int) : stoll t = some (n, []) ↔ IntText t n := by
  constructor
  · intro h
    rw [stoll_eq] at h
    obtain ⟨sg, e1, hs, hv⟩ := signed_eq (t.dropWhile isSpace)
    obtain ⟨ds, e2, hd, hm⟩ := span_inv (signed (t.dropWhile isSpace)).2
    generalize signed (t.dropWhile isSpace) = q at *
    generalize spanDigits q.2 = r at *
    obtain ⟨r1, r2⟩ := r
    simp only at hm e2
    cases ds with
    | nil =>
      simp only [List.map_nil] at hm
      subst hm
      simp at h
    | cons c ds =>
      subst hm
      simp only [List.map_cons] at h
      split at h
      · rename_i hr
        simp only [Option.some.injEq, Prod.mk.injEq] at h
        obtain ⟨rfl, rfl⟩ := h
        rw [List.append_nil] at e2
        rw [e2] at e1
        have hf := fold_digits (c :: ds) 0
        simp only [List.map_cons] at hf
        rw [hf] at hr ⊢
        refine ⟨t.takeWhile isSpace, sg, c :: ds, ?_, ?_, hs, List.cons_ne_nil _ _, hd, ?_, ?_, ?_⟩
        · rw [List.append_assoc, ← e1, List.takeWhile_append_dropWhile]
        · intro x hx
          exact (isSpace_iff x).1 (List.all_eq_true.1 (List.all_takeWhile) x hx)
        · rw [hv]
        · norm_num; exact hr.1
        · norm_num; omega
      · simp at h
  · rintro ⟨ws, sg, ds, rfl, hw, hs, hne, hd, rfl, hlo, hhi⟩
    rw [stoll_eq]
    have hdig : ∀ c ∈ ds, isSpace c = false ∧ c ≠ '-' ∧ c ≠ '+' := by
      intro c hc
      have := (isDigit_iff c).1 (hd c hc)
      have h0 : ('0'.toNat) = 48 := rfl
      have h9 : ('9'.toNat) = 57 := rfl
      refine ⟨?_, ?_, ?_⟩
      · cases hsp : isSpace c with
        | false => rfl
        | true =>
          have := (isSpace_iff c).1 hsp
          simp only [List.mem_cons, List.not_mem_nil, or_false] at this
          rcases this with rfl | rfl | rfl | rfl | rfl | rfl <;> revert hd hc <;> intro hd hc <;> exact absurd (hd _ hc) (by decide)
      · rintro rfl; exact absurd (hd _ hc) (by decide)
      · rintro rfl; exact absurd (hd _ hc) (by decide)
    obtain ⟨c, ds', rfl⟩ := List.exists_cons_of_ne_nil hne
    have hdrop : (ws ++ sg ++ c :: ds').dropWhile isSpace = sg ++ c :: ds' := by
      rw [List.append_assoc, List.dropWhile_append_of_pos fun x hx => (isSpace_iff x).2 (hw x hx)]
      rcases hs with rfl | rfl | rfl
      · exact List.dropWhile_cons_of_neg (by rw [(hdig c (by simp)).1]; decide)
      · exact List.dropWhile_cons_of_neg (by decide)
      · exact List.dropWhile_cons_of_neg (by decide)
    rw [hdrop]
    have hsg : signed (sg ++ c :: ds') = ((if sg = ['-'] then -1 else 1), c :: ds') := by
      rcases hs with rfl | rfl | rfl
      · have := hdig c (by simp)
        show signed (c :: ds') = _
        unfold signed
        split
        · rename_i e; exact absurd (List.cons.inj e).1 this.2.1
        · rename_i e; exact absurd (List.cons.inj e).1 this.2.2
        · rfl
      · rfl
      · rfl
    rw [hsg]
    simp only
    have := span_all (c :: ds') [] hd (by simp)
    rw [List.append_nil] at this
    rw [this]
    have hf := fold_digits (c :: ds') 0
    simp only [List.map_cons] at hf ⊢
    rw [hf, if_pos]
    constructor
    · have e : (-2 ^ 63 : Int) = -9223372036854775808 := by decide
      rw [e] at hlo; exact hlo
    · have e : (2 ^ 63 : Int) = 9223372036854775808 := by decide
      rw [e] at hhi; omega

theorem kernelExt_iff (t : List Char) (f : List Char) (n : Int) :
    kernelExt t = some (f, n) ↔ (':' ∉ t ∧ f = t ∧ n = 0) ∨ ∃ q, t = f ++ ':' :: q ∧ ':' ∉ q ∧ IntText q n := by
  unfold kernelExt
  cases hs : splitFirst ':' t.reverse with
  | none =>
    have h := (splitFirst_none ':' t.reverse).1 hs
    rw [List.mem_reverse] at h
    simp only [Option.some.injEq, Prod.mk.injEq]
    constructor
    · rintro ⟨rfl, rfl⟩; exact .inl ⟨h, rfl, rfl⟩
    · rintro (⟨-, rfl, rfl⟩ | ⟨q, rfl, -⟩)
      · exact ⟨rfl, rfl⟩
      · exact absurd (by simp) h
  | some r =>
    obtain ⟨p, g⟩ := r
    obtain ⟨e, hn⟩ := (splitFirst_some ':' t.reverse p g).1 hs
    have et : t = g.reverse ++ ':' :: p.reverse := by
      rw [← List.reverse_reverse t, e]; simp
    simp only
    have hcase : (match stoll p.reverse with | some (n, []) => some (g.reverse, n) | _ => none) = some (f, n) ↔ stoll p.reverse = some (n, []) ∧ g.reverse = f := by
      split
      · rename_i n' h
        rw [h]
        simp only [Option.some.injEq, Prod.mk.injEq, and_true]
        exact and_comm
      · rename_i h
        constructor
        · intro e; cases e
        · rintro ⟨e, -⟩; exact absurd e (h n)
    refine hcase.trans ?_
    rw [stoll_iff]
    constructor
    · rintro ⟨hi, rfl⟩
      exact .inr ⟨p.reverse, et, by simpa using hn, hi⟩
    · rintro (⟨h, -, -⟩ | ⟨q, h, hq, hi⟩)
      · exact absurd (by rw [et]; simp) h
      · have h2 := (splitFirst_some ':' t.reverse q.reverse f.reverse).2 ⟨by rw [h]; simp, by simpa using hq⟩
        rw [hs] at h2
        cases h2
        exact ⟨by simpa using hi, by simp⟩

theorem intDigits_text (n : Int) (h : -2 ^ 63 ≤ n) (h' : n < 2 ^ 63) : IntText (intDigits n) n ∧ ':' ∉ intDigits n := by
  have hd : ∀ c ∈ Nat.toDigits 10 n.natAbs, c.isDigit = true := fun _ hc => Nat.isDigit_of_mem_toDigits (by decide) (by decide) hc
  have hne : Nat.toDigits 10 n.natAbs ≠ [] := Nat.toDigits_ne_nil
  have hc : ':' ∉ Nat.toDigits 10 n.natAbs := fun hm => absurd (hd _ hm) (by decide)
  unfold intDigits
  split
  · refine ⟨⟨[], ['-'], Nat.toDigits 10 n.natAbs, rfl, by simp, by simp, hne, hd, ?_, h, h'⟩, by simp [hc]⟩
    rw [Nat.ofDigitChars_ten_toDigits, if_pos rfl]
    omega
  · refine ⟨⟨[], [], Nat.toDigits 10 n.natAbs, rfl, by simp, by simp, hne, hd, ?_, h, h'⟩, hc⟩
    rw [Nat.ofDigitChars_ten_toDigits, if_neg (by decide)]
    omega

/-- **C337.** Kernel extensions: a text with a colon is accepted exactly if what follows the *last* colon is an integer of 64 bits; this integer is the priority and what precedes that colon, whatever
it is, is the catalog file. In particular, `file:n` works for every file and every such integer, also a negative one; and a text without colon is a catalog file of priority 0. -/
theorem C337_kernel_extension (t f : List Char) (n : Int) :
    (kernelExt t = some (f, n) ↔ (':' ∉ t ∧ f = t ∧ n = 0) ∨ ∃ q, t = f ++ ':' :: q ∧ ':' ∉ q ∧ IntText q n) ∧
    (-2 ^ 63 ≤ n → n < 2 ^ 63 → kernelExt (f ++ ':' :: intDigits n) = some (f, n)) := by
  refine ⟨kernelExt_iff t f n, fun h h' => ?_⟩
  obtain ⟨h1, h2⟩ := intDigits_text n h h'
  exact (kernelExt_iff _ f n).2 (.inr ⟨_, rfl, h2, h1⟩)

/-- **C338, refuted.** A catalog file whose path contains a colon cannot be given without a priority: it is refused, unless its last part happens to be an integer, in which case another file is
read. -/
theorem C338_colon_in_path_partial (a b : List Char) (hb : ':' ∉ b) :
    (∀ n, kernelExt (a ++ ':' :: b) ≠ some (a ++ ':' :: b, n)) ∧
    ((∃ c ∈ b, c.isAlpha = true) → kernelExt (a ++ ':' :: b) = none) ∧
    (∀ n, IntText b n → kernelExt (a ++ ':' :: b) = some (a, n)) := by
  refine ⟨fun n h => ?_, ?_, fun n h => (kernelExt_iff _ a n).2 (.inr ⟨b, rfl, hb, h⟩)⟩
  · rcases (kernelExt_iff _ _ n).1 h with ⟨h, -, -⟩ | ⟨q, h, -⟩
    · exact h (by simp)
    · exact absurd h (by intro e; have := congrArg List.length e; simp at this)
  · rintro ⟨c, hc, ha⟩
    cases h : kernelExt (a ++ ':' :: b) with
    | none => rfl
    | some q =>
      exfalso
      rcases (kernelExt_iff _ q.1 q.2).1 h with ⟨h, -, -⟩ | ⟨q', h, hq', hi⟩
      · exact h (by simp)
      · have e1 := (splitFirst_some ':' (a ++ ':' :: b).reverse b.reverse a.reverse).2 ⟨by simp, by simpa using hb⟩
        have e2 := (splitFirst_some ':' (a ++ ':' :: b).reverse q'.reverse q.1.reverse).2 ⟨by rw [h]; simp, by simpa using hq'⟩
        rw [e1] at e2
        simp only [Option.some.injEq, Prod.mk.injEq, List.reverse_inj] at e2
        rw [← e2.1] at hi
        obtain ⟨ws, sg, ds, rfl, hw, hs, -, hd, -⟩ := hi
        simp only [List.mem_append] at hc
        rcases hc with (hc | hc) | hc
        · have := hw c hc
          simp only [List.mem_cons, List.not_mem_nil, or_false] at this
          rcases this with rfl | rfl | rfl | rfl | rfl | rfl <;> exact absurd ha (by decide)
        · rcases hs with rfl | rfl | rfl
          · simp at hc
          · simp only [List.mem_singleton] at hc; subst hc; exact absurd ha (by decide)
          · simp only [List.mem_singleton] at hc; subst hc; exact absurd ha (by decide)
        · have h1 := hd c hc
          simp only [Char.isAlpha, Char.isUpper, Char.isLower, Char.isDigit, Bool.or_eq_true, Bool.and_eq_true, decide_eq_true_eq, ge_iff_le, UInt32.le_iff_toNat_le] at h1 ha
          simp at h1 ha
          omega

/-- **C339.** The library directory: a leading `{exedir}/` is replaced by the directory of the executable (which is not empty, and ends with a slash only if it is the root) and a slash, if a relative path follows;
a path without this prefix is not changed. -/
theorem C339_library_directory (exe : List Char) (hne : exe ≠ []) (hexe : exe = ['/'] ∨ exe.getLast? ≠ some '/') :
    (∀ rest : List Char, rest.head? ≠ some '/' →
      resolveLibDir exe (.s (['{', 'e', 'x', 'e', 'd', 'i', 'r', '}', '/'] ++ rest)) = .s ((if exe = ['/'] then ['/'] else exe ++ ['/']) ++ rest)) ∧
    (∀ t : List Char, (∀ rest, t ≠ ['{', 'e', 'x', 'e', 'd', 'i', 'r', '}', '/'] ++ rest) → resolveLibDir exe (.s t) = .s t) := by
  constructor
  · intro rest hr
    simp only [resolveLibDir, placeholder, List.length_cons, List.length_nil, List.cons_append, List.nil_append, List.take_succ_cons, List.take_zero, List.drop_succ_cons, List.drop_zero, if_true,
      joinPath, if_neg hr]
    rcases hexe with rfl | h
    · simp
    · rw [if_neg (by rintro (e | e); exacts [hne e, h e])]
      by_cases e : exe = ['/']
      · subst e; exact absurd rfl h
      · rw [if_neg e]; simp
  · intro t ht
    unfold resolveLibDir
    simp only
    rw [if_neg]
    intro e
    exact ht (t.drop placeholder.length) (by
      have h := List.take_append_drop placeholder.length t
      rw [e] at h
      exact h.symm)

/-- **C340, refuted.** If an absolute path follows the placeholder (`{exedir}//lib`), the directory of the executable is dropped. -/
theorem C340_absolute_rest_partial (exe rest : List Char) :
    resolveLibDir exe (.s (['{', 'e', 'x', 'e', 'd', 'i', 'r', '}', '/', '/'] ++ rest)) = .s ('/' :: rest) := by
  simp [resolveLibDir, placeholder, joinPath]

/-! ### Examples -/

example : scriptArgs [['a', '=', '1', '=', '2']] [['b', '=']] = some [(['a'], ['1', '=', '2']), (['b'], [])] := by decide +kernel
example : scriptArgs [['a', '=', '1']] [['a', '=', '2']] = none := by decide +kernel
example : scriptArgs [['a']] [] = none := by decide +kernel
example : kernelExt ['d', ':', 'k', ':', '-', '1', '2'] = some (['d', ':', 'k'], -12) := by decide +kernel
example : kernelExt ['d', ':', 'k'] = none := by decide +kernel
example : kernelExt ['k'] = some (['k'], 0) := by decide +kernel
example : IntText [' ', '+', '0', '7'] 7 := ⟨[' '], ['+'], ['0', '7'], rfl, by decide, by decide, by decide, by decide, by decide +kernel, by decide, by decide⟩
example : resolveLibDir ['/', 'b'] (.s (['{', 'e', 'x', 'e', 'd', 'i', 'r', '}', '/', 'l'])) = .s ['/', 'b', '/', 'l'] := by decide +kernel

end Verif.Conf

/-
  String literals: C243, C244. src/parser/sql/SQLVisitor.cpp:1111-1126, src/parser/daphnedsl/DaphneDSLVisitor.cpp:1998-2011.
-/
import Verif.Basic.Res

namespace Verif.Sql.Escape

/-! ### Specification -/

/-- What stands between the quotation marks: single characters and escape sequences (fragment `ESCAPE_SEQ` and rule `STRING_LITERAL` of the grammars). -/
inductive Tok where
  | plain (c : Char)
  | esc (y : Char)
  deriving DecidableEq

/-- As written in the program. -/
def Tok.text : Tok → List Char
  | .plain c => [c]
  | .esc y => ['\\', y]

/-- The character that an escape sequence stands for. -/
def meaning : Char → Char
  | 'b' => '\x08'
  | 'f' => '\x0c'
  | 'n' => '\n'
  | 'r' => '\r'
  | 't' => '\t'
  | y => y

/-- The character that is meant. -/
def Tok.char : Tok → Char
  | .plain c => c
  | .esc y => meaning y

/-- Tokens of a literal with the escape sequences `ys`. -/
def Legal (ys : List Char) (ts : List Tok) : Prop := ∀ t ∈ ts, match t with
  | .plain c => c ≠ '\\'
  | .esc y => y ∈ ys

/-- No escaped backslash is directly followed by a character that makes up an escape sequence with it. -/
def NoClash (ys : List Char) : List Tok → Prop
  | .esc y :: .plain c :: ts => (y = '\\' → c ∉ ys) ∧ NoClash ys (.plain c :: ts)
  | _ :: ts => NoClash ys ts
  | [] => True

/-! ### Model -/

/-- `std::regex_replace(str, std::regex("\\x"), c)`: all occurrences of a backslash followed by `x`, from left to right. -/
def rep (x c : Char) : List Char → List Char
  | [] => []
  | [a] => [a]
  | a :: b :: l => if a = '\\' ∧ b = x then c :: rep x c l else a :: rep x c (b :: l)

/-- One replacement after the other. -/
def decode (passes : List (Char × Char)) (s : List Char) : List Char := passes.foldl (fun s p => rep p.1 p.2 s) s

/-- DaphneDSLVisitor.cpp:2005-2011. -/
def dslPasses : List (Char × Char) := [('b', '\x08'), ('f', '\x0c'), ('n', '\n'), ('r', '\r'), ('t', '\t'), ('"', '"'), ('\\', '\\')]

/-- SQLVisitor.cpp:1118-1125. -/
def sqlPasses : List (Char × Char) := [('b', '\x08'), ('f', '\x0c'), ('n', '\n'), ('r', '\r'), ('t', '\t'), ('"', '"'), ('\'', '\''), ('\\', '\\')]

/-! ### Proof -/

def flat (ts : List Tok) : List Char := ts.flatMap Tok.text

def sub (x c : Char) : Tok → Tok
  | .plain d => .plain d
  | .esc y => if y = x then .plain c else .esc y

theorem rep_cons {x c a : Char} (h : a ≠ '\\') (l : List Char) : rep x c (a :: l) = a :: rep x c l := by
  cases l with
  | nil => rfl
  | cons b l => rw [rep, if_neg (by simp [h])]

theorem rep_skip {x c b : Char} (h : b ≠ x) (l : List Char) : rep x c ('\\' :: b :: l) = '\\' :: rep x c (b :: l) := by
  rw [rep, if_neg (by simp [h])]

theorem rep_flat {x c : Char} (hx : x ≠ '\\') : ∀ (ts : List Tok), (∀ d, Tok.plain d ∈ ts → d ≠ '\\') →
    (∀ a b d, ts = a ++ .esc '\\' :: .plain d :: b → d ≠ x) → rep x c (flat ts) = flat (ts.map (sub x c)) := by
  intro ts
  induction ts with
  | nil => intro _ _; rfl
  | cons t ts ih =>
    intro hp ha
    have ih' := ih (fun d hd => hp d (by simp [hd])) (fun a b d h => ha (t :: a) b d (by rw [h]; rfl))
    cases t with
    | plain d =>
      show rep x c (d :: flat ts) = d :: flat (ts.map (sub x c))
      rw [rep_cons (hp d (by simp)), ih']
    | esc y =>
      show rep x c ('\\' :: y :: flat ts) = flat (sub x c (.esc y) :: ts.map (sub x c))
      by_cases hy : y = x
      · subst hy
        rw [rep, if_pos ⟨rfl, rfl⟩, ih']
        simp [sub, flat, Tok.text]
      · rw [rep_skip hy]
        have h1 : rep x c (y :: flat ts) = y :: rep x c (flat ts) := by
          by_cases hyb : y = '\\'
          · subst hyb
            cases ts with
            | nil => rfl
            | cons t ts =>
              cases t with
              | plain d => exact rep_skip (ha [] ts d rfl) _
              | esc z => exact rep_skip (Ne.symm hx) _
          · exact rep_cons hyb _
        rw [h1, ih']
        simp [sub, hy, flat, Tok.text]

theorem rep_last : ∀ (ts : List Tok), (∀ t ∈ ts, (∃ d, t = .plain d ∧ d ≠ '\\') ∨ t = .esc '\\') → rep '\\' '\\' (flat ts) = ts.map Tok.char := by
  intro ts
  induction ts with
  | nil => intro _; rfl
  | cons t ts ih =>
    intro h
    have ih' := ih fun t ht => h t (by simp [ht])
    rcases h t (by simp) with ⟨d, rfl, hd⟩ | rfl
    · show rep '\\' '\\' (d :: flat ts) = d :: ts.map Tok.char
      rw [rep_cons hd, ih']
    · show rep '\\' '\\' ('\\' :: '\\' :: flat ts) = '\\' :: ts.map Tok.char
      rw [rep, if_pos ⟨rfl, rfl⟩, ih']

theorem noClash_split {ys : List Char} : ∀ {ts a : List Tok} {b : List Tok} {d : Char}, NoClash ys ts → ts = a ++ .esc '\\' :: .plain d :: b → d ∉ ys := by
  intro ts a
  induction a generalizing ts with
  | nil =>
    intro b d h he
    subst he
    exact h.1 rfl
  | cons t a ih =>
    intro b d h he
    subst he
    rw [List.cons_append] at h
    refine ih (ts := a ++ .esc '\\' :: .plain d :: b) (b := b) ?_ rfl
    revert h
    generalize a ++ Tok.esc '\\' :: Tok.plain d :: b = l
    intro h
    cases t with
    | plain c => exact h
    | esc y =>
      cases l with
      | nil => trivial
      | cons u l =>
        cases u with
        | plain c => exact h.2
        | esc z => exact h

/-- The passes before the last one. -/
theorem passes_ok : ∀ (ps : List (Char × Char)) (ts : List Tok), (∀ p ∈ ps, p.1 ≠ '\\' ∧ p.2 ≠ '\\' ∧ p.2 = meaning p.1 ∧ meaning p.2 = p.2) →
    ps.Pairwise (fun p q => p.2 ≠ q.1) → (∀ t ∈ ts, (∃ d, t = .plain d ∧ d ≠ '\\') ∨ t = .esc '\\' ∨ ∃ p ∈ ps, t = .esc p.1) →
    (∀ a b d, ts = a ++ .esc '\\' :: .plain d :: b → ∀ p ∈ ps, d ≠ p.1) →
    decode (ps ++ [('\\', '\\')]) (flat ts) = ts.map Tok.char := by
  intro ps
  induction ps with
  | nil =>
    intro ts _ _ ht _
    refine rep_last ts fun t h => ?_
    rcases ht t h with h | h | ⟨p, hp, _⟩
    · exact .inl h
    · exact .inr h
    · cases hp
  | cons p ps ih =>
    intro ts hps hpw ht hc
    obtain ⟨h1, h2, h3, h4⟩ := hps p (by simp)
    have hr : rep p.1 p.2 (flat ts) = flat (ts.map (sub p.1 p.2)) := by
      refine rep_flat h1 ts ?_ ?_
      · intro d hd
        rcases ht _ hd with ⟨d', h, hne⟩ | h | ⟨_, _, h⟩
        · cases h; exact hne
        · cases h
        · cases h
      · exact fun a b d h => hc a b d h p (by simp)
    rw [List.cons_append, decode, List.foldl_cons, hr]
    have h5 : (ts.map (sub p.1 p.2)).map Tok.char = ts.map Tok.char := by
      rw [List.map_map]
      apply List.map_congr_left
      intro t _
      cases t with
      | plain d => rfl
      | esc y =>
        simp only [Function.comp, sub]
        split
        · rename_i h; subst h; exact h3
        · rfl
    rw [← h5]
    refine ih (ts.map (sub p.1 p.2)) (fun q hq => hps q (by simp [hq])) (List.pairwise_cons.1 hpw).2 ?_ ?_
    · intro t htm
      obtain ⟨u, hu, rfl⟩ := List.mem_map.1 htm
      rcases ht u hu with ⟨d, rfl, hd⟩ | rfl | ⟨q, hq, rfl⟩
      · exact .inl ⟨d, rfl, hd⟩
      · refine .inr (.inl ?_)
        simp [sub, Ne.symm h1]
      · by_cases hqp : q.1 = p.1
        · exact .inl ⟨p.2, by simp [sub, hqp], h2⟩
        · refine .inr (.inr ⟨q, ?_, by simp [sub, hqp]⟩)
          rcases List.mem_cons.1 hq with rfl | hq
          · exact absurd rfl hqp
          · exact hq
    · intro a b d he q hq
      rw [List.map_eq_append_iff] at he
      obtain ⟨ta, tb, rfl, _, he2⟩ := he
      rw [List.map_eq_cons_iff] at he2
      obtain ⟨t1, tb', rfl, he3, he4⟩ := he2
      rw [List.map_eq_cons_iff] at he4
      obtain ⟨t2, tb'', rfl, he5, _⟩ := he4
      have ht1 : t1 = .esc '\\' := by
        cases t1 with
        | plain e => simp [sub] at he3
        | esc y =>
          simp only [sub] at he3
          split at he3
          · cases he3
          · exact he3
      subst ht1
      cases t2 with
      | plain e =>
        simp only [sub, Tok.plain.injEq] at he5
        subst he5
        exact hc ta tb'' e rfl q (by simp [hq])
      | esc y =>
        simp only [sub] at he5
        split at he5
        · cases he5
          exact (List.pairwise_cons.1 hpw).1 q hq
        · cases he5

/-- The escape sequences of DaphneDSL (fragment `ESCAPE_SEQ`, DaphneDSLGrammar.g4:204) and of SQL (SQLGrammar.g4:185). -/
def dslEscapes : List Char := ['b', 'f', 'n', 'r', 't', '"', '\\']
def sqlEscapes : List Char := ['b', 'f', 'n', 'r', 't', '"', '\'', '\\']

theorem core (ps : List (Char × Char)) (hps : ∀ p ∈ ps, p.1 ≠ '\\' ∧ p.2 ≠ '\\' ∧ p.2 = meaning p.1 ∧ meaning p.2 = p.2)
    (hpw : ps.Pairwise (fun p q => p.2 ≠ q.1)) (ys : List Char) (hys : ∀ y ∈ ys, y = '\\' ∨ ∃ p ∈ ps, p.1 = y) (hys' : ∀ p ∈ ps, p.1 ∈ ys) (ts : List Tok) (h : Legal ys ts)
    (hc : NoClash ys ts) : decode (ps ++ [('\\', '\\')]) (flat ts) = ts.map Tok.char := by
  refine passes_ok ps ts hps hpw ?_ ?_
  · intro t ht
    have := h t ht
    cases t with
    | plain d => exact .inl ⟨d, rfl, this⟩
    | esc y =>
      rcases hys y this with rfl | ⟨p, hp, rfl⟩
      · exact .inr (.inl rfl)
      · exact .inr (.inr ⟨p, hp, rfl⟩)
  · intro a b d he p hp hd
    exact noClash_split hc he (hd ▸ hys' p hp)

/-- **String literals of DaphneDSL**: the value of a literal is the sequence of characters that its text stands for, if no escaped backslash is followed
by a character that would make up an escape sequence with the backslash. -/
theorem C243_string_literals (ts : List Tok) (h : Legal dslEscapes ts) (hc : NoClash dslEscapes ts) :
    decode dslPasses (ts.flatMap Tok.text) = ts.map Tok.char :=
  core [('b', '\x08'), ('f', '\x0c'), ('n', '\n'), ('r', '\r'), ('t', '\t'), ('"', '"')] (by decide) (by decide) dslEscapes (by decide) (by decide) ts h hc

/-- The same for SQL. -/
theorem C243_sql_string_literals (ts : List Tok) (h : Legal sqlEscapes ts) (hc : NoClash sqlEscapes ts) :
    decode sqlPasses (ts.flatMap Tok.text) = ts.map Tok.char :=
  core [('b', '\x08'), ('f', '\x0c'), ('n', '\n'), ('r', '\r'), ('t', '\t'), ('"', '"'), ('\'', '\'')] (by decide) (by decide) sqlEscapes (by decide) (by decide) ts h hc

/-- `"C:\\dir\n\"x\""` -/
def sample : List Tok := [.plain 'C', .plain ':', .esc '\\', .plain 'd', .plain 'i', .plain 'r', .esc 'n', .esc '"', .plain 'x', .esc '"']

example : Legal dslEscapes sample ∧ NoClash dslEscapes sample := by
  refine ⟨?_, ?_⟩
  · intro t ht
    simp only [sample, List.mem_cons, List.not_mem_nil, or_false] at ht
    rcases ht with rfl | rfl | rfl | rfl | rfl | rfl | rfl | rfl | rfl | rfl <;> decide
  · simp [sample, NoClash, dslEscapes]

/-- **An escaped backslash followed by one of the letters b, f, n, r, t is not decoded correctly**: the literal `"\\n"` is a
backslash and a line break instead of a backslash and the letter `n` (think of `"C:\\new"`), in DaphneDSL and in SQL. -/
theorem C244_escaped_backslash_partial : ∀ y ∈ ['b', 'f', 'n', 'r', 't'],
    decode dslPasses ([Tok.esc '\\', .plain y].flatMap Tok.text) = ['\\', meaning y] ∧ decode sqlPasses ([Tok.esc '\\', .plain y].flatMap Tok.text) = ['\\', meaning y] ∧
      [Tok.esc '\\', .plain y].map Tok.char = ['\\', y] ∧ meaning y ≠ y := by
  decide

end Verif.Sql.Escape

/-
  What a Matrix Market file contains (specification), and its header.
-/
import Verif.Mtx.Model

namespace Verif.Mtx
open Verif Verif.Io
variable {VT : Type}

/-! ### Specification -/

/-- The text `s` of a number stands for the value `v` (at the start of a line and behind a space). -/
structure Reads (N : Num VT) (s : List Char) (v : VT) : Prop where
  nl : '\n' ∉ s
  bare : N.conv (s ++ ['\n']) = v
  after : N.conv (' ' :: (s ++ ['\n'])) = v

/-- The first line of a file: `%%MatrixMarket matrix <crd> <data> <storage>`, where upper and lower case make no difference. -/
def Banner (b : List Char) (crd data storage : String) : Prop :=
  ∃ w1 w2 w3 w4, b = "%%MatrixMarket".toList ++ ' ' :: (w1 ++ ' ' :: (w2 ++ ' ' :: (w3 ++ ' ' :: w4))) ∧ w1.map Char.toLower = "matrix".toList ∧
    w2.map Char.toLower = crd.toList ∧ w3.map Char.toLower = data.toList ∧ w4.map Char.toLower = storage.toList

/-- A comment or a blank line. -/
def Comment (l : List Char) : Prop := '\n' ∉ l ∧ (l.head? = some '%' ∨ ∀ c ∈ l, isSpace c = true)

/-- A file: banner, comments, sizes, entries. -/
def fileText (b : List Char) (comments : List (List Char)) (size body : List Char) : List Char :=
  b ++ '\n' :: (comments.flatMap (· ++ ['\n']) ++ (size ++ '\n' :: body))

def Field.word : Field → String
  | .real => "real"
  | .complex => "complex"
  | .pattern => "pattern"
  | .integer => "integer"
  | .blank => ""

def Sym.word : Sym → String
  | .general => "general"
  | .symmetric => "symmetric"
  | .hermitian => "hermitian"
  | .skew => "skew-symmetric"

/-! ### Lines and words -/

theorem getLine_eq {f : File} {l S : List Char} (h : f.rest = l ++ '\n' :: S) (hl : '\n' ∉ l) : f.getLine = some ⟨l ++ ['\n'], S⟩ := by
  unfold File.getLine
  have ha : ∀ c ∈ l, decide (c ≠ '\n') = true := fun c hc => by simp; rintro rfl; exact hl hc
  rw [if_neg (by rw [h]; simp), h, takeWhile_append_stop ha (by simp), dropWhile_append_stop ha (by simp)]
  simp

theorem dropWhile_none {p : Char → Bool} {l : List Char} (h : ∀ c, l.head? = some c → p c = false) : l.dropWhile p = l := by
  cases l with
  | nil => rfl
  | cons c l => rw [List.dropWhile_cons_of_neg (by simp [h c rfl])]

theorem dropWhile_allp {p : Char → Bool} {l : List Char} (h : ∀ c ∈ l, p c = true) : l.dropWhile p = [] := by
  induction l with
  | nil => rfl
  | cons c l ih => rw [List.dropWhile_cons_of_pos (h c (by simp)), ih fun d hd => h d (by simp [hd])]

theorem scanTok_word {w : List Char} (hw : w ≠ []) (hs : ∀ c ∈ w, isSpace c = false) {c : Char} (hc : isSpace c = true) (r : List Char) :
    scanTok (w ++ c :: r) = some (w, c :: r) := by
  have h1 : (w ++ c :: r).dropWhile isSpace = w ++ c :: r := dropWhile_none fun d hd => by
    cases w with
    | nil => exact absurd rfl hw
    | cons x w =>
      simp at hd
      exact hs d (by simp [hd])
  have h2 : (w ++ c :: r).takeWhile (fun c => !isSpace c) = w := takeWhile_append_stop (fun d hd => by simp [hs d hd]) (by simp [hc]) r
  have h3 : (w ++ c :: r).dropWhile (fun c => !isSpace c) = c :: r := dropWhile_append_stop (fun d hd => by simp [hs d hd]) (by simp [hc]) r
  simp only [scanTok, h1, h2, h3]
  rw [if_neg (by simp)]

theorem scanTok_space {l : List Char} : scanTok (' ' :: l) = scanTok l := by
  have : (' ' :: l).dropWhile isSpace = l.dropWhile isSpace := List.dropWhile_cons_of_pos (by decide)
  simp only [scanTok, this]

/-- Characters of a word that differs from a given one without white space at most in its case. -/
theorem lower_word {w : List Char} {s : List Char} (h : w.map Char.toLower = s) (hs : ∀ c ∈ s, isSpace c = false) : ∀ c ∈ w, isSpace c = false := by
  intro c hc
  have hm : c.toLower ∈ s := by rw [← h]; exact List.mem_map_of_mem hc
  have := hs _ hm
  cases hsp : isSpace c with
  | false => rfl
  | true =>
    exfalso
    have : c.toLower = c := by
      unfold Char.toLower
      rw [dif_neg]
      rintro ⟨h1, h2⟩
      simp only [isSpace, Bool.or_eq_true, decide_eq_true_eq, Bool.and_eq_true] at hsp
      have h1' : 65 ≤ c.toNat := h1
      rcases hsp with rfl | ⟨_, h3⟩
      · revert h1'; decide
      · omega
    simp_all

theorem nl_space : isSpace '\n' = true := by decide

theorem no_newline {w : List Char} (h : ∀ c ∈ w, isSpace c = false) : '\n' ∉ w := fun hm => by
  have := h _ hm
  rw [nl_space] at this
  simp at this

/-! ### Banner -/

theorem readBanner_ok {b : List Char} {crd data storage : String} (hb : Banner b crd data storage) {f : File} {S : List Char}
    (hf : f.rest = b ++ '\n' :: S) (hc : ∀ c ∈ crd.toList, isSpace c = false) (hd : ∀ c ∈ data.toList, isSpace c = false)
    (hs : ∀ c ∈ storage.toList, isSpace c = false) (lc : 0 < crd.toList.length ∧ crd.toList.length < 64)
    (ld : 0 < data.toList.length ∧ data.toList.length < 64) (ls : 0 < storage.toList.length ∧ storage.toList.length < 64) :
    ∃ w1 w2 w3 w4 l, w1.map Char.toLower = MTX ∧ w2.map Char.toLower = crd.toList ∧ w3.map Char.toLower = data.toList ∧
      w4.map Char.toLower = storage.toList ∧
      readBanner f = .ok (⟨l, S⟩, (classify BANNER w1 w2 w3 w4).1, (classify BANNER w1 w2 w3 w4).2) := by
  obtain ⟨w1, w2, w3, w4, rfl, e1, e2, e3, e4⟩ := hb
  have s0 : ∀ c ∈ BANNER, isSpace c = false := by decide
  have s1 := lower_word e1 (by decide)
  have s2 := lower_word e2 hc
  have s3 := lower_word e3 hd
  have s4 := lower_word e4 hs
  have hlen : ∀ {w s : List Char}, w.map Char.toLower = s → w.length = s.length := fun h => by rw [← h]; simp
  have n1 : w1.length = 6 := by rw [hlen e1]; rfl
  have n2 := hlen e2
  have n3 := hlen e3
  have n4 := hlen e4
  have hnl : '\n' ∉ BANNER ++ ' ' :: (w1 ++ ' ' :: (w2 ++ ' ' :: (w3 ++ ' ' :: w4))) := by
    simp only [List.mem_append, List.mem_cons, not_or]
    exact ⟨no_newline s0, by decide, no_newline s1, by decide, no_newline s2, by decide, no_newline s3, by decide, no_newline s4⟩
  refine ⟨w1, w2, w3, w4, BANNER ++ ' ' :: (w1 ++ ' ' :: (w2 ++ ' ' :: (w3 ++ ' ' :: w4))) ++ ['\n'], e1, e2, e3, e4, ?_⟩
  rw [readBanner, getLine_eq hf hnl]
  have ne : ∀ {w : List Char}, 0 < w.length → w ≠ [] := fun h he => by simp [he] at h
  have hsp : isSpace ' ' = true := by decide
  have htoks : scanToks 5 (BANNER ++ ' ' :: (w1 ++ ' ' :: (w2 ++ ' ' :: (w3 ++ ' ' :: w4))) ++ ['\n']) = [BANNER, w1, w2, w3, w4] := by
    have e : BANNER ++ ' ' :: (w1 ++ ' ' :: (w2 ++ ' ' :: (w3 ++ ' ' :: w4))) ++ ['\n'] =
        BANNER ++ ' ' :: (w1 ++ ' ' :: (w2 ++ ' ' :: (w3 ++ ' ' :: (w4 ++ '\n' :: [])))) := by simp
    rw [e]
    simp only [scanToks, scanTok_space, scanTok_word (by decide) s0 hsp, scanTok_word (ne (by omega)) s1 hsp, scanTok_word (ne (by omega)) s2 hsp,
      scanTok_word (ne (by omega)) s3 hsp, scanTok_word (ne (by omega)) s4 nl_space]
  have n0 : BANNER.length = 14 := rfl
  change (if (scanToks 5 (BANNER ++ ' ' :: (w1 ++ ' ' :: (w2 ++ ' ' :: (w3 ++ ' ' :: w4))) ++ ['\n'])).any (fun t => decide (64 ≤ t.length)) then
    _ else match scanToks 5 (BANNER ++ ' ' :: (w1 ++ ' ' :: (w2 ++ ' ' :: (w3 ++ ' ' :: w4))) ++ ['\n']) with
      | [b, m, c, d, s] => _
      | _ => _) = _
  rw [htoks, if_neg]
  · rfl
  · simp only [List.any_cons, List.any_nil, Bool.or_false, Bool.or_eq_true, decide_eq_true_eq, not_or]
    omega

/-- The type code of a file with real, integer or pattern entries. -/
theorem banner_ok {b : List Char} {fmt : Fmt} (hfmt : fmt = .coord ∨ fmt = .array) {field : Field} (hfield : field ≠ .blank) {sym : Sym}
    (hb : Banner b (if fmt = .coord then "coordinate" else "array") field.word sym.word) {f : File} {S : List Char} (hf : f.rest = b ++ '\n' :: S) :
    ∃ l, readBanner f = .ok (⟨l, S⟩, ⟨true, fmt, field, sym⟩, 0) := by
  have hpre : BANNER <+: BANNER := List.prefix_rfl
  obtain ⟨w1, w2, w3, w4, l, e1, e2, e3, e4, h⟩ := readBanner_ok hb hf
    (by rcases hfmt with rfl | rfl <;> decide) (by cases field <;> first | decide | exact absurd rfl hfield) (by cases sym <;> decide)
    (by rcases hfmt with rfl | rfl <;> decide) (by cases field <;> first | decide | exact absurd rfl hfield) (by cases sym <;> decide)
  refine ⟨l, ?_⟩
  rw [h]
  have : classify BANNER w1 w2 w3 w4 = (⟨true, fmt, field, sym⟩, 0) := by
    simp only [classify, e1, e2, e3, e4, hpre, not_true, if_false, ne_eq]
    rcases hfmt with rfl | rfl <;> cases field <;> cases sym <;> first | decide | exact absurd rfl hfield
  rw [this]

/-! ### Sizes -/

theorem digits_head (n : Nat) : ∃ d r, digits n = d :: r ∧ isDigit d = true := by
  cases h : digits n with
  | nil => exact absurd h (digits_ne_nil n)
  | cons d r => exact ⟨d, r, rfl, digits_all n d (by simp [h])⟩

theorem scanNum_digits {n : Nat} (hn : n < 2 ^ 64) {c : Char} (hc : isDigit c = false) (r : List Char) : scanNum (digits n ++ c :: r) = some (n, c :: r) := by
  obtain ⟨d, r', hd, hdig⟩ := digits_head n
  have hsp := isDigit_not hdig
  have h1 : (digits n ++ c :: r).dropWhile isSpace = digits n ++ c :: r := dropWhile_none fun x hx => by
    rw [hd] at hx; simp at hx; rw [← hx]; exact hsp.1
  have hh : (digits n ++ c :: r).head? = some d := by rw [hd]; rfl
  have h3 : (digits n ++ c :: r).takeWhile isDigit = digits n := takeWhile_append_stop (digits_all n) hc r
  have h4 : (digits n ++ c :: r).dropWhile isDigit = c :: r := dropWhile_append_stop (digits_all n) hc r
  have h2 : ¬ ((digits n ++ c :: r).head? = some '-' ∨ (digits n ++ c :: r).head? = some '+') := by
    rw [hh]; simp [hsp.2.1, hsp.2.2]
  simp only [scanNum, h1, if_neg h2, h3, h4, digitsValue_digits n hc r]
  rw [if_neg (digits_ne_nil n), if_neg (by rw [hh]; simp [hsp.2.1]), Nat.min_eq_left (by omega)]

theorem scanNum_space {l : List Char} : scanNum (' ' :: l) = scanNum l := by
  have : (' ' :: l).dropWhile isSpace = l.dropWhile isSpace := List.dropWhile_cons_of_pos (by decide)
  simp only [scanNum, this]

theorem scanNum_comment {l : List Char} (h : Comment l) : scanNum (l ++ ['\n']) = none := by
  rcases h.2 with h | h
  · cases l with
    | nil => simp at h
    | cons c l =>
      simp at h
      subst h
      have : ('%' :: l ++ ['\n']).dropWhile isSpace = '%' :: l ++ ['\n'] := dropWhile_none fun c hc => by
        simp at hc; subst hc; decide
      simp only [scanNum, this]
      have hd : isDigit '%' = false := by decide
      simp [hd]
  · have : (l ++ ['\n']).dropWhile isSpace = [] := dropWhile_allp fun c hc => by
      rcases List.mem_append.1 hc with hc | hc
      · exact h c hc
      · rw [List.mem_singleton.1 hc]; decide
    simp [scanNum, this]

theorem readSize_ok {k : Nat} (hk : 0 < k) {size : List Char} (hs : '\n' ∉ size) {vs : List Nat} (hv : scanNums k (size ++ ['\n']) = vs)
    (hlen : vs.length = k) {body : List Char} : ∀ (comments : List (List Char)), (∀ l ∈ comments, Comment l) → ∀ (fuel : Nat) (f : File) (ns : List Nat),
      comments.length < fuel → f.rest = comments.flatMap (· ++ ['\n']) ++ (size ++ '\n' :: body) → readSize k fuel f ns = (⟨size ++ ['\n'], body⟩, vs)
  | [], _, 0, f, ns, hf, _ => by simp at hf
  | [], _, fuel + 1, f, ns, _, hr => by
    rw [readSize, getLine_eq (by simpa using hr) hs]
    simp [hv, hlen]
  | c :: comments, _, 0, f, ns, hf, _ => by simp at hf
  | c :: comments, hc, fuel + 1, f, ns, hf, hr => by
    have hcc := hc c (by simp)
    rw [readSize, getLine_eq (S := comments.flatMap (· ++ ['\n']) ++ (size ++ '\n' :: body)) (by rw [hr]; simp) hcc.1]
    have : scanNums k (c ++ ['\n']) = [] := by
      cases k with
      | zero => omega
      | succ k => simp [scanNums, scanNum_comment hcc]
    simp only [this]
    rw [if_neg (by simp; omega)]
    exact readSize_ok hk hs hv hlen comments (fun l hl => hc l (by simp [hl])) fuel _ _ (by simp at hf; omega) rfl

theorem nl_digit : isDigit '\n' = false := by decide
theorem space_digit : isDigit ' ' = false := by decide

theorem digits_nl (n : Nat) : '\n' ∉ digits n := fun h => (digits_chars n _ h).2 rfl

theorem length_comments (comments : List (List Char)) : comments.length ≤ (comments.flatMap (· ++ ['\n'])).length := by
  induction comments with
  | nil => simp
  | cons c cs ih => simp at ih ⊢; omega

/-- Header of a file in coordinate format. -/
theorem open_coord {b : List Char} {field : Field} (hfield : field ≠ .blank) {sym : Sym} (hb : Banner b "coordinate" field.word sym.word)
    {comments : List (List Char)} (hc : ∀ l ∈ comments, Comment l) {rows cols nnz : Nat} (h1 : rows < 2 ^ 64) (h2 : cols < 2 ^ 64) (h3 : nnz < 2 ^ 64)
    (body : List Char) :
    ∃ l, MM.open (some (fileText b comments (digits rows ++ ' ' :: (digits cols ++ ' ' :: digits nnz)) body)) =
      .ok ⟨⟨l, body⟩, ⟨true, .coord, field, sym⟩, rows, cols, if sym = .skew then 2 * nnz % 2 ^ 64 else nnz⟩ := by
  obtain ⟨l, hl⟩ := banner_ok (fmt := .coord) (.inl rfl) hfield (by simpa using hb)
    (f := File.open (fileText b comments (digits rows ++ ' ' :: (digits cols ++ ' ' :: digits nnz)) body)) rfl
  have hs : '\n' ∉ digits rows ++ ' ' :: (digits cols ++ ' ' :: digits nnz) := by
    simp [digits_nl]
  have hv : scanNums 3 (digits rows ++ ' ' :: (digits cols ++ ' ' :: digits nnz) ++ ['\n']) = [rows, cols, nnz] := by
    have e : digits rows ++ ' ' :: (digits cols ++ ' ' :: digits nnz) ++ ['\n'] =
        digits rows ++ ' ' :: (digits cols ++ ' ' :: (digits nnz ++ '\n' :: [])) := by simp
    rw [e]
    simp only [scanNums, scanNum_space, scanNum_digits h1 space_digit, scanNum_digits h2 space_digit, scanNum_digits h3 nl_digit]
  have hr := readSize_ok (by omega) hs hv rfl (body := body) comments hc
    ((comments.flatMap (· ++ ['\n']) ++ (digits rows ++ ' ' :: (digits cols ++ ' ' :: digits nnz) ++ '\n' :: body)).length + 1) ⟨l, _⟩ [0, 0, 0]
    (by have := length_comments comments; simp only [List.length_append] at this ⊢; omega) rfl
  refine ⟨digits rows ++ ' ' :: (digits cols ++ ' ' :: digits nnz) ++ ['\n'], ?_⟩
  simp only [MM.open, hl, Res.ok_bind, if_true, hr]
  rfl

/-- Header of a file in array format. -/
theorem open_array {b : List Char} {field : Field} (hfield : field ≠ .blank) {sym : Sym} (hb : Banner b "array" field.word sym.word)
    {comments : List (List Char)} (hc : ∀ l ∈ comments, Comment l) {rows cols : Nat} (h1 : rows < 2 ^ 64) (h2 : cols < 2 ^ 64) (body : List Char) :
    ∃ l, MM.open (some (fileText b comments (digits rows ++ ' ' :: digits cols) body)) =
      .ok ⟨⟨l, body⟩, ⟨true, .array, field, sym⟩, rows, cols,
        if sym = .skew then (rows * cols % 2 ^ 64 + 2 ^ 64 - rows) % 2 ^ 64 else rows * cols % 2 ^ 64⟩ := by
  obtain ⟨l, hl⟩ := banner_ok (fmt := .array) (.inr rfl) hfield (by simpa using hb)
    (f := File.open (fileText b comments (digits rows ++ ' ' :: digits cols) body)) rfl
  have hs : '\n' ∉ digits rows ++ ' ' :: digits cols := by simp [digits_nl]
  have hv : scanNums 2 (digits rows ++ ' ' :: digits cols ++ ['\n']) = [rows, cols] := by
    have e : digits rows ++ ' ' :: digits cols ++ ['\n'] = digits rows ++ ' ' :: (digits cols ++ '\n' :: []) := by simp
    rw [e]
    simp only [scanNums, scanNum_space, scanNum_digits h1 space_digit, scanNum_digits h2 nl_digit]
  have hr := readSize_ok (by omega) hs hv rfl (body := body) comments hc
    ((comments.flatMap (· ++ ['\n']) ++ (digits rows ++ ' ' :: digits cols ++ '\n' :: body)).length + 1) ⟨l, _⟩ [0, 0]
    (by have := length_comments comments; simp only [List.length_append] at this ⊢; omega) rfl
  refine ⟨digits rows ++ ' ' :: digits cols ++ ['\n'], ?_⟩
  simp only [MM.open, hl, Res.ok_bind, if_true, if_neg (by decide : ¬ Fmt.array = Fmt.coord), hr]
  rfl

end Verif.Mtx

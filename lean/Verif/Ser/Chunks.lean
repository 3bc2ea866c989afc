/- Chunked (de)serialization: generic correctness from the laws of `serialize`/`deserialize`. -/
import Verif.Ser.Lemmas
import Mathlib.Data.List.Perm.Basic

namespace Verif.Ser
open Verif
variable {O : Type}

/-- What the chunk classes need from `DaphneSerializer<DT>`, for a source object whose serialized form is the byte sequence `stream` of
length `total`. `Shape o`: `o` has the source's shape; `byteAt o j`: the byte of `o` at stream position `j`. -/
structure Law (C : Codec O) (src : O) (srcLen : Nat) (stream : Nat → Byte) (total : Nat) (Shape : O → Prop) (byteAt : O → Nat → Byte) : Prop where
  hdr_pos : 0 < C.headerSize
  hdr_le : C.headerSize ≤ total
  total_lt : total < 2 ^ 64
  len_src : C.length src = .ok srcLen
  total_le : total ≤ srcLen
  len_shape : ∀ o, Shape o → C.length o = .ok total
  ser : ∀ buf base cs from', C.headerSize ≤ cs → base + cs ≤ buf.size → (from' = 0 ∨ C.headerSize ≤ from') → from' ≤ total →
    Res.Ok (C.serialize src buf base cs from') fun p => p.1 = min cs (total - from') ∧ Holds stream buf p.2 base from' p.1
  serHeader : ∀ buf base, base + C.headerSize ≤ buf.size →
    Res.Ok (C.serializeHeader src buf base) fun p => p.1 = C.headerSize ∧ Holds stream buf p.2 base 0 p.1
  desHeader : ∀ buf base (o : Option O), base + C.headerSize ≤ buf.size → (∀ i, i < C.headerSize → buf.data (base + i) = stream i) →
    (∀ x, o = some x → Shape x) → Res.Ok (C.deserializeHeader buf base o) fun o' => ∃ x, o' = some x ∧ Shape x
  des : ∀ buf base cs o from', Shape o → base + cs ≤ buf.size → from' ≤ total →
    (C.headerSize ≤ from' ∨ (from' = 0 ∧ C.headerSize ≤ cs ∧ ∀ i, i < C.headerSize → buf.data (base + i) = stream i)) →
    Res.Ok (C.deserialize buf base cs (some o) from') fun o' => Shape o' ∧ ∀ j, C.headerSize ≤ j → j < total →
      byteAt o' j = if from' ≤ j ∧ j < from' + cs then buf.data (base + (j - from')) else byteAt o j
  desNone : ∀ buf base cs, base + cs ≤ buf.size → C.headerSize ≤ cs → (∀ i, i < C.headerSize → buf.data (base + i) = stream i) →
    Res.Ok (C.deserialize buf base cs none 0) fun o' => Shape o' ∧ ∀ j, C.headerSize ≤ j → j < total → j < cs → byteAt o' j = buf.data (base + j)

/-- All bytes have arrived. -/
def Complete (C : Codec O) (stream : Nat → Byte) (total : Nat) (Shape : O → Prop) (byteAt : O → Nat → Byte) (o : O) : Prop :=
  Shape o ∧ ∀ j, C.headerSize ≤ j → j < total → byteAt o j = stream j

/-- The serialized form as a list. -/
def streamList (stream : Nat → Byte) (total : Nat) : List Byte := (List.range total).map stream

theorem numChunks_mul {len cs : Nat} (h : 0 < cs) : len ≤ Codec.numChunks len cs * cs := by
  unfold Codec.numChunks
  have := Nat.div_add_mod (len + cs - 1) cs
  have := Nat.mod_lt (len + cs - 1) h
  rw [Nat.mul_comm cs] at *
  omega

theorem lt_numChunks {len cs k : Nat} (h : 0 < cs) : k < Codec.numChunks len cs ↔ k * cs < len := by
  unfold Codec.numChunks
  rw [Nat.lt_div_iff_mul_lt h]
  omega

variable {C : Codec O} {src : O} {srcLen : Nat} {stream : Nat → Byte} {total : Nat} {Shape : O → Prop} {byteAt : O → Nat → Byte}

theorem range_map_append (f : Nat → Byte) (p a b : Nat) :
    (List.range a).map (fun k => f (p + k)) ++ (List.range b).map (fun k => f (p + a + k)) = (List.range (a + b)).map (fun k => f (p + k)) := by
  rw [List.range_add, List.map_append, List.map_map]
  congr 1
  apply List.map_congr_left
  intro k _
  simp [Nat.add_assoc]

theorem emit_ok (L : Law C src srcLen stream total Shape byteAt) (cs : Nat) (hcs : C.headerSize ≤ cs) (k : Nat) :
    ∀ (p n : Nat) (buf : Buf Byte), buf.size = cs → n = min cs (total - p) → p ≤ total → (∀ i, i < n → buf.data i = stream (p + i)) →
      (p = 0 ∨ C.headerSize ≤ p) →
      Res.Ok (C.emit src cs k (p + n) (n, buf)) fun chunks =>
        chunks.flatMap (fun c => bytesAt c.2 0 c.1) = (List.range (min (total - p) (k * cs))).map fun i => stream (p + i) := by
  induction k with
  | zero => intro p n buf _ _ _ _ _; exact ⟨[], rfl, by simp⟩
  | succ k ih =>
    intro p n buf h1 h2 h3 h4 h5
    unfold Codec.emit
    have hp := L.hdr_pos
    have hl := L.hdr_le
    refine (L.ser buf 0 cs (p + n) hcs (by omega) (by omega) (by omega)).bind fun ⟨n', buf'⟩ ⟨g1, g2, g3⟩ => ?_
    simp only at g1 g2 g3 ⊢
    refine (ih (p + n) n' buf' (by omega) g1 (by omega) (fun i hi => ?_) (by omega)).bind fun rest hr => Res.ok_iff.2 ?_
    · rw [g3 i, if_pos (by omega), Nat.sub_zero]
    · rw [List.flatMap_cons, hr]
      have e1 : bytesAt buf 0 n = (List.range n).map fun i => stream (p + i) := by
        unfold bytesAt
        apply List.map_congr_left
        intro i hi
        have := List.mem_range.1 hi
        rw [Nat.zero_add, h4 i this]
      rw [e1, range_map_append]
      congr 2
      rw [Nat.succ_mul]
      omega

/-- The chunks of the in-order serializer, put together, are the serialized form. -/
theorem writeFile_ok (L : Law C src srcLen stream total Shape byteAt) (cs : Nat) (hcs : C.headerSize ≤ cs) :
    C.writeFile src cs = .ok (streamList stream total) := by
  have hp := L.hdr_pos
  have hl := L.hdr_le
  have htl := L.total_le
  suffices h : Res.Ok (C.writeFile src cs) fun l => l = streamList stream total by
    obtain ⟨l, h1, h2⟩ := h; rw [h1, h2]
  unfold Codec.writeFile Codec.serializeChunks
  rw [if_neg (by omega), L.len_src, Res.ok_bind]
  have hc : C.headerSize ≤ (if cs > srcLen then srcLen else cs) := by split <;> omega
  generalize (if cs > srcLen then srcLen else cs) = c at hc ⊢
  simp only
  rw [if_neg (by omega)]
  refine Res.Ok.bind (P := fun chunks => chunks.flatMap (fun c => bytesAt c.2 0 c.1) = streamList stream total) ?_ fun ch h => Res.ok_iff.2 h
  refine (L.ser ⟨c, fun _ => 0⟩ 0 c 0 hc (by simp) (Or.inl rfl) (by omega)).bind fun ⟨n, buf⟩ ⟨g1, g2, g3⟩ => ?_
  simp only at g1 g2 g3 ⊢
  have := emit_ok L c hc (Codec.numChunks srcLen c) 0 n buf g2 g1 (by omega) (fun i hi => by rw [g3 i, if_pos (by omega)]; simp) (Or.inl rfl)
  rw [Nat.zero_add] at this
  refine this.mono fun chunks h => ?_
  rw [h]
  have := numChunks_mul (len := srcLen) (cs := c) (by omega)
  rw [Nat.min_eq_left (by omega)]
  simp [streamList]

theorem readInto_ok {stream : Nat → Byte} {total done : Nat} {buf : Buf Byte} {n : Nat} (h : done ≤ total) :
    let r := Codec.readInto (streamList stream total) done buf n
    r.1 = min n (total - done) ∧ r.2.size = buf.size ∧ ∀ i, i < r.1 → r.2.data i = stream (done + i) := by
  simp only [Codec.readInto, streamList, List.length_map, List.length_range]
  refine ⟨trivial, trivial, fun i hi => ?_⟩
  rw [if_pos hi, List.getD_eq_getElem _ _ (by simp; omega)]
  simp

theorem readLoop_ok (L : Law C src srcLen stream total Shape byteAt) (cs : Nat) (hcs : C.headerSize ≤ cs) (fuel : Nat) :
    ∀ (index : Nat) (o : O) (buf : Buf Byte), 0 < index → index ≤ Codec.numChunks total cs → Codec.numChunks total cs < index + fuel →
      buf.size = cs → Shape o → (∀ j, C.headerSize ≤ j → j < min total (index * cs) → byteAt o j = stream j) →
      Res.Ok (C.readLoop (streamList stream total) cs fuel index (min total (index * cs)) (some o) buf) fun r =>
        ∃ x, r = some x ∧ Complete C stream total Shape byteAt x := by
  have hp := L.hdr_pos
  have hl := L.hdr_le
  induction fuel with
  | zero => intro index o buf _ h1 h2; omega
  | succ fuel ih =>
    intro index o buf h0 h1 h2 h3 h4 h5
    unfold Codec.readLoop Codec.endIndex
    simp only
    rw [L.len_shape o h4, Res.ok_bind, Res.ok_bind]
    by_cases he : index = Codec.numChunks total cs
    · rw [if_pos he]
      have := numChunks_mul (len := total) (cs := cs) (by omega)
      rw [← he] at this
      exact Res.ok_iff.2 ⟨o, rfl, h4, fun j g1 g2 => h5 j g1 (by omega)⟩
    · rw [if_neg he]
      have hlt : index * cs < total := (lt_numChunks (by omega)).1 (by omega)
      have hge : cs ≤ index * cs := Nat.le_mul_of_pos_left _ h0
      have hr := readInto_ok (stream := stream) (total := total) (done := min total (index * cs)) (buf := buf) (n := cs) (by omega)
      simp only at hr
      obtain ⟨r1, r2, r3⟩ := hr
      generalize Codec.readInto (streamList stream total) (min total (index * cs)) buf cs = r at r1 r2 r3 ⊢
      obtain ⟨n, buf'⟩ := r
      simp only at r1 r2 r3 ⊢
      unfold Codec.step
      rw [if_neg (by omega), Res.ok_bind]
      refine (L.des buf' 0 n o _ h4 (by omega) (by omega) (Or.inl (by omega))).bind fun o' ⟨g1, g2⟩ => ?_
      have e : min total (index * cs) + n = min total ((index + 1) * cs) := by rw [Nat.succ_mul]; omega
      rw [e]
      refine ih (index + 1) o' buf' (by omega) (by omega) (by omega) (by omega) g1 fun j j1 j2 => ?_
      rw [g2 j j1 (by omega)]
      by_cases hj : min total (index * cs) ≤ j
      · rw [if_pos (by omega), Nat.zero_add, r3 _ (by omega)]; congr 1; omega
      · rw [if_neg (by omega)]; exact h5 j j1 (by omega)

/-- Reading back the serialized form in chunks of any admissible size completes the object. -/
theorem readFile_ok (L : Law C src srcLen stream total Shape byteAt) (cs : Nat) (hcs : C.headerSize ≤ cs) (fuel : Nat)
    (hf : Codec.numChunks total cs < fuel) :
    Res.Ok (C.readFile (streamList stream total) cs fuel) fun r => ∃ x, r = some x ∧ Complete C stream total Shape byteAt x := by
  have hp := L.hdr_pos
  have hl := L.hdr_le
  unfold Codec.readFile
  rw [if_neg (by omega)]
  obtain ⟨fuel, rfl⟩ : ∃ f, fuel = f + 1 := ⟨fuel - 1, by omega⟩
  unfold Codec.readLoop Codec.endIndex
  simp only
  rw [Res.ok_bind, if_neg (by omega)]
  have hr := readInto_ok (stream := stream) (total := total) (done := 0) (buf := ⟨cs, fun _ => 0⟩) (n := cs) (by omega)
  simp only at hr
  obtain ⟨r1, r2, r3⟩ := hr
  generalize Codec.readInto (streamList stream total) 0 ⟨cs, fun _ => 0⟩ cs = r at r1 r2 r3 ⊢
  obtain ⟨n, buf⟩ := r
  simp only at r1 r2 r3 ⊢
  have hh : ∀ i, i < C.headerSize → buf.data (0 + i) = stream i := fun i hi => by
    rw [Nat.zero_add, r3 i (by omega), Nat.zero_add]
  unfold Codec.step
  rw [if_pos rfl]
  refine Res.Ok.bind (P := fun o' => Shape o' ∧ ∀ j, C.headerSize ≤ j → j < min total (1 * cs) → byteAt o' j = stream j) ?_ ?_
  · refine (L.desHeader buf 0 none (by omega) hh (by simp)).bind fun o' ⟨x, hx, hs⟩ => ?_
    subst hx
    refine (L.des buf 0 n x 0 hs (by omega) (by omega) (Or.inr ⟨rfl, by omega, hh⟩)).mono fun o' ⟨g1, g2⟩ => ⟨g1, fun j j1 j2 => ?_⟩
    rw [g2 j j1 (by omega), if_pos (by omega), Nat.zero_add, r3 _ (by omega)]; simp
  · rintro o' ⟨g1, g2⟩
    have e : 0 + n = min total (1 * cs) := by omega
    rw [e]
    have h1 : 0 < Codec.numChunks total cs := (lt_numChunks (by omega)).2 (by omega)
    exact readLoop_ok L cs hcs fuel 1 o' buf (by omega) (by omega) (by omega) r2 g1 g2

/-- One piece: serializing into a buffer that is large enough, and deserializing from it. -/
theorem onePiece_ok (L : Law C src srcLen stream total Shape byteAt) (buf : Buf Byte) (cs : Nat) (hcs : total ≤ cs) (hs : cs ≤ buf.size) :
    Res.Ok (C.serialize src buf 0 cs 0) fun p => p.1 = total ∧ bytesAt p.2 0 total = streamList stream total ∧
      ∀ cs', total ≤ cs' → cs' ≤ buf.size → Res.Ok (C.deserialize p.2 0 cs' none 0) fun x => Complete C stream total Shape byteAt x := by
  have hl := L.hdr_le
  refine (L.ser buf 0 cs 0 (by omega) (by omega) (Or.inl rfl) (by omega)).mono fun ⟨n, b⟩ ⟨h1, h2, h3⟩ => ?_
  simp only at h1 h2 h3 ⊢
  have hd : ∀ i, i < total → b.data i = stream i := fun i hi => by rw [h3 i, if_pos (by omega)]; simp
  refine ⟨by omega, ?_, fun cs' g1 g2 => ?_⟩
  · unfold bytesAt streamList
    apply List.map_congr_left
    intro i hi
    rw [Nat.zero_add, hd i (List.mem_range.1 hi)]
  · refine (L.desNone b 0 cs' (by omega) (by omega) fun i hi => ?_).mono fun o ⟨o1, o2⟩ => ⟨o1, fun j j1 j2 => ?_⟩
    · rw [Nat.zero_add]; exact hd i (by omega)
    · rw [o2 j j1 j2 (by omega), Nat.zero_add]; exact hd j j2

/-! ### Chunks in any order -/

/-- `buf` is the chunk for the stream bytes from `from'`; payload `p` bytes. -/
structure IsChunk (C : Codec O) (stream : Nat → Byte) (total p : Nat) (buf : Buf Byte) (from' : Nat) : Prop where
  size : buf.size = C.headerSize + 8 + p
  hdr : ∀ i, i < C.headerSize → buf.data i = stream i
  off : HasBytes buf C.headerSize (le 8 from')
  pay : ∀ k, k < p → from' + k < total → buf.data (C.headerSize + 8 + k) = stream (from' + k)

theorem nextChunk_ok (L : Law C src srcLen stream total Shape byteAt) (p : Nat) (hp : C.headerSize ≤ p) (from' : Nat)
    (hf : from' = 0 ∨ C.headerSize ≤ from') (hle : from' ≤ total) :
    Res.Ok (C.nextChunk src (C.headerSize + 8 + p) from') fun r => r.1 = from' + min p (total - from') ∧ IsChunk C stream total p r.2 from' := by
  unfold Codec.nextChunk
  refine (L.serHeader ⟨C.headerSize + 8 + p, fun _ => 0⟩ 0 (by simp; omega)).bind fun ⟨b, buf⟩ ⟨g1, g2, g3⟩ => ?_
  simp only at g1 g2 g3 ⊢
  subst g1
  refine (putBytes_ok (by rw [le_length]; omega)).bind fun buf2 ⟨c1, c2⟩ => ?_
  rw [sub64_eq (by omega), Nat.add_sub_cancel_left]
  rw [le_length] at c2
  refine (L.ser buf2 (C.headerSize + 8) p from' hp (by omega) hf hle).bind fun ⟨n, buf3⟩ ⟨d1, d2, d3⟩ => Res.ok_iff.2 ?_
  simp only at d1 d2 d3 ⊢
  refine ⟨by omega, by omega, fun i hi => ?_, fun k hk => ?_, fun k hk hk2 => ?_⟩
  · rw [d3 i, if_neg (by omega), c2 i, if_neg (by omega), g3 i, if_pos (by omega)]; simp
  · rw [le_length] at hk
    rw [d3, if_neg (by omega), c2, if_pos (by omega)]; congr 1; omega
  · rw [d3, if_pos (by omega)]; congr 1; omega

theorem outOfOrderLoop_ok (L : Law C src srcLen stream total Shape byteAt) (hlen : srcLen = total) (p : Nat) (hp : C.headerSize ≤ p) (fuel : Nat) :
    ∀ k, k ≤ Codec.numChunks total p → Codec.numChunks total p < k + fuel →
      Res.Ok (C.outOfOrderLoop src (C.headerSize + 8 + p) fuel (min total (k * p))) fun l =>
        l.length = Codec.numChunks total p - k ∧ ∀ i c, l[i]? = some c → IsChunk C stream total p c ((k + i) * p) := by
  have h0 := L.hdr_pos
  have hl := L.hdr_le
  induction fuel with
  | zero => intro k h1 h2; omega
  | succ fuel ih =>
    intro k h1 h2
    unfold Codec.outOfOrderLoop
    rw [L.len_src, hlen, Res.ok_bind]
    have hm := numChunks_mul (len := total) (cs := p) (by omega)
    by_cases he : k = Codec.numChunks total p
    · rw [if_neg (by rw [he]; omega)]
      exact Res.ok_iff.2 ⟨by simp; omega, by simp⟩
    · have hlt : k * p < total := (lt_numChunks (by omega)).1 (by omega)
      rw [if_pos (by omega)]
      have hf : min total (k * p) = 0 ∨ C.headerSize ≤ min total (k * p) := by
        rcases Nat.eq_zero_or_pos k with g | g
        · left; subst g; omega
        · right
          have : p ≤ k * p := Nat.le_mul_of_pos_left _ g
          omega
      refine (nextChunk_ok L p hp _ hf (by omega)).bind fun ⟨s, c⟩ ⟨g1, g2⟩ => ?_
      simp only at g1 g2 ⊢
      have e : s = min total ((k + 1) * p) := by rw [Nat.succ_mul]; omega
      rw [e]
      refine (ih (k + 1) (by omega) (by omega)).bind fun rest ⟨r1, r2⟩ => Res.ok_iff.2 ⟨by simp; omega, fun i c' hc => ?_⟩
      cases i with
      | zero =>
        simp only [List.getElem?_cons_zero, Option.some.injEq] at hc
        subst hc
        have : min total (k * p) = (k + 0) * p := by simp; omega
        rw [← this]; exact g2
      | succ i =>
        simp only [List.getElem?_cons_succ] at hc
        have := r2 i c' hc
        have e2 : k + 1 + i = k + (i + 1) := by omega
        rw [e2] at this; exact this

theorem outOfOrderChunks_ok (L : Law C src srcLen stream total Shape byteAt) (hlen : srcLen = total) (p : Nat) (hp : C.headerSize ≤ p)
    (fuel : Nat) (hf : Codec.numChunks total p < fuel) :
    Res.Ok (C.outOfOrderChunks src (C.headerSize + 8 + p) fuel) fun l =>
      l.length = Codec.numChunks total p ∧ ∀ i c, l[i]? = some c → IsChunk C stream total p c (i * p) := by
  unfold Codec.outOfOrderChunks
  rw [L.len_src, Res.ok_bind, if_neg (by omega)]
  have := outOfOrderLoop_ok L hlen p hp fuel 0 (by omega) (by omega)
  rw [Nat.zero_mul, Nat.min_zero] at this
  refine this.mono fun l ⟨h1, h2⟩ => ⟨by omega, fun i c hc => ?_⟩
  have := h2 i c hc
  rwa [Nat.zero_add] at this

/-- Bytes of the range of chunk start `s` have arrived. -/
def Arrived (C : Codec O) (stream : Nat → Byte) (total p : Nat) (byteAt : O → Nat → Byte) (o : O) (s : Nat) : Prop :=
  ∀ j, C.headerSize ≤ j → j < total → s ≤ j → j < s + p → byteAt o j = stream j

theorem takeChunk_ok (L : Law C src srcLen stream total Shape byteAt) (p : Nat) (hp : C.headerSize ≤ p) (o : Option O) (cnt : Nat)
    (ho : ∀ x, o = some x → Shape x) (c : Buf Byte) (s : Nat) (hc : IsChunk C stream total p c s) (hs : s = 0 ∨ C.headerSize ≤ s) (hst : s < total) :
    Res.Ok (C.takeChunk (o, cnt) c) fun st => st.2 = cnt + p ∧ ∃ x, st.1 = some x ∧ Shape x ∧ Arrived C stream total p byteAt x s ∧
      ∀ y s', o = some y → Arrived C stream total p byteAt y s' → Arrived C stream total p byteAt x s' := by
  have h0 := L.hdr_pos
  have hl := L.hdr_le
  have ht := L.total_lt
  unfold Codec.takeChunk
  simp only
  refine Res.Ok.bind (P := fun o' => ∃ x, o' = some x ∧ Shape x ∧ ∀ y, o = some y → x = y) ?_ ?_
  · unfold Codec.headerIfNone
    cases ho' : o with
    | none =>
      refine (L.desHeader c 0 none (by rw [hc.size]; omega) (fun i hi => by rw [Nat.zero_add]; exact hc.hdr i hi) (by simp)).mono
        fun o' ⟨x, h1, h2⟩ => ⟨x, h1, h2, by simp⟩
    | some y => exact ⟨some y, rfl, y, rfl, ho y ho', by simp⟩
  · rintro _ ⟨x, rfl, hx, hxy⟩
    rw [readNum_of hc.off (by rw [hc.size]; omega), Res.ok_bind, Nat.mod_eq_of_lt (by omega), hc.size, sub64_eq (by omega),
      Nat.add_sub_cancel_left]
    refine (L.des c (C.headerSize + 8) p x s hx (by rw [hc.size]) (by omega) ?_).bind fun o' ⟨g1, g2⟩ => Res.ok_iff.2
      ⟨rfl, o', rfl, g1, fun j j1 j2 j3 j4 => ?_, fun y s' hy ha j j1 j2 j3 j4 => ?_⟩
    · rcases hs with hs | hs
      · right
        subst hs
        refine ⟨rfl, hp, fun i hi => ?_⟩
        have := hc.pay i (by omega) (by omega)
        rwa [Nat.zero_add] at this
      · exact Or.inl hs
    · rw [g2 j j1 j2, if_pos ⟨j3, j4⟩]
      have := hc.pay (j - s) (by omega) (by omega)
      rw [this]; congr 1; omega
    · rw [g2 j j1 j2]
      by_cases hj : s ≤ j ∧ j < s + p
      · rw [if_pos hj]
        have := hc.pay (j - s) (by omega) (by omega)
        rw [this]; congr 1; omega
      · rw [if_neg hj, hxy y hy]; exact ha j j1 j2 j3 j4

theorem receive_loop (L : Law C src srcLen stream total Shape byteAt) (p : Nat) (hp : C.headerSize ≤ p) (starts : List (Nat × Buf Byte)) :
    ∀ (done : List Nat) (o : Option O), (∀ e ∈ starts, IsChunk C stream total p e.2 e.1 ∧ (e.1 = 0 ∨ C.headerSize ≤ e.1) ∧ e.1 < total) →
      done.length + starts.length = Codec.numChunks total p → (∀ x, o = some x → Shape x) → (o = none → done = []) →
      (∀ x, o = some x → ∀ s ∈ done, Arrived C stream total p byteAt x s) →
      Res.Ok (C.receive (o, done.length * p) (starts.map Prod.snd)) fun r => r.2 = [] ∧ ∃ x, r.1 = some x ∧ Shape x ∧
        ∀ s, s ∈ done ++ starts.map Prod.fst → Arrived C stream total p byteAt x s := by
  have h0 := L.hdr_pos
  have hl := L.hdr_le
  induction starts with
  | nil =>
    intro done o h1 h2 h3 h4 h5
    have hn : 0 < Codec.numChunks total p := (lt_numChunks (by omega)).2 (by omega)
    unfold Codec.receive Codec.hasNext
    cases o with
    | none => rw [h4 rfl] at h2; simp at h2; omega
    | some x =>
      simp only
      have hm := numChunks_mul (len := total) (cs := p) (by omega)
      simp only [List.length_nil, Nat.add_zero] at h2
      rw [L.len_shape x (h3 x rfl), Res.ok_bind, Res.ok_bind, if_neg (by rw [h2]; simp; omega)]
      exact Res.ok_iff.2 ⟨rfl, x, rfl, h3 x rfl, by simpa using h5 x rfl⟩
  | cons e starts ih =>
    intro done o h1 h2 h3 h4 h5
    obtain ⟨s, c⟩ := e
    have hc := h1 (s, c) (by simp)
    simp only [List.map_cons, List.length_cons] at h2 ⊢
    unfold Codec.receive
    have hnext : C.hasNext (o, done.length * p) = .ok true := by
      unfold Codec.hasNext
      cases o with
      | none => rfl
      | some x =>
        simp only
        rw [L.len_shape x (h3 x rfl), Res.ok_bind]
        have : done.length * p < total := (lt_numChunks (by omega)).1 (by omega)
        simp [this]
    rw [hnext, Res.ok_bind, if_pos rfl]
    simp only
    refine (takeChunk_ok L p hp o _ h3 c s hc.1 hc.2.1 hc.2.2).bind fun ⟨o', cnt⟩ ⟨g1, x, g2, g3, g4, g5⟩ => ?_
    simp only at g1 g2
    subst g2
    have e : cnt = (s :: done).length * p := by rw [g1, List.length_cons, Nat.succ_mul]
    rw [e]
    refine (ih (s :: done) (some x) (fun e he => h1 e (by simp [he])) (by simp; omega) (by simpa using g3) (by simp) (fun y hy s' hs' => ?_)).mono
      fun r ⟨r1, y, r2, r3, r4⟩ => ⟨r1, y, r2, r3, fun s' hs' => r4 s' (by simp at hs' ⊢; tauto)⟩
    simp only [Option.some.injEq] at hy
    subst hy
    rcases List.mem_cons.1 hs' with g | g
    · subst g; exact g4
    · cases ho : o with
      | none => rw [h4 ho] at g; simp at g
      | some y => exact g5 y s' ho (h5 y ho s' g)

/-- Receiving the chunks in any order completes the object and consumes exactly the chunks. -/
theorem receive_ok (L : Law C src srcLen stream total Shape byteAt) (p : Nat) (hp : C.headerSize ≤ p) (l l' : List (Buf Byte))
    (hlen : l.length = Codec.numChunks total p) (hl : ∀ i c, l[i]? = some c → IsChunk C stream total p c (i * p)) (hperm : l'.Perm l) :
    Res.Ok (C.receive (none, 0) l') fun r => r.2 = [] ∧ ∃ x, r.1 = some x ∧ Complete C stream total Shape byteAt x := by
  have h0 := L.hdr_pos
  let ps : List (Nat × Buf Byte) := l.zipIdx.map fun e => (e.2 * p, e.1)
  have hps : ps.map Prod.snd = l := by
    simp only [ps, List.map_map]
    have : (Prod.snd ∘ fun e : Buf Byte × Nat => (e.2 * p, e.1)) = Prod.fst := rfl
    rw [this, List.zipIdx_map_fst]
  obtain ⟨ps', hp1, hp2⟩ : ∃ ps' : List (Nat × Buf Byte), ps'.map Prod.snd = l' ∧ ps'.Perm ps := by
    have hperm' : (ps.map Prod.snd).Perm l' := by rw [hps]; exact hperm.symm
    clear hps
    generalize ps = q at hperm'
    clear hperm hl hlen
    induction l' generalizing q with
    | nil =>
      have := hperm'.length_eq
      simp at this
      exact ⟨[], rfl, by rw [this]⟩
    | cons c l' ih =>
      have hm : c ∈ q.map Prod.snd := hperm'.symm.subset (by simp)
      obtain ⟨e, he1, he2⟩ := List.mem_map.1 hm
      obtain ⟨a, b, hab⟩ := List.append_of_mem he1
      have hq : q.Perm (e :: (a ++ b)) := by rw [hab]; exact List.perm_middle
      have h2 : ((e :: (a ++ b)).map Prod.snd).Perm (c :: l') := (hq.map Prod.snd).symm.trans hperm'
      rw [List.map_cons, he2] at h2
      obtain ⟨r, hr1, hr2⟩ := ih (a ++ b) ((List.perm_cons c).1 h2)
      exact ⟨e :: r, by simp [hr1, he2], (hr2.cons e).trans hq.symm⟩
  have hlen' : ps'.length = Codec.numChunks total p := by
    rw [hp2.length_eq]; simp [ps, hlen]
  have hmem : ∀ e, e ∈ ps' ↔ ∃ i, l[i]? = some e.2 ∧ e.1 = i * p := by
    intro e
    rw [hp2.mem_iff]
    simp only [ps, List.mem_map]
    constructor
    · rintro ⟨⟨c, i⟩, h1, rfl⟩
      exact ⟨i, List.mem_zipIdx_iff_getElem?.1 h1, rfl⟩
    · rintro ⟨i, h1, h2⟩
      exact ⟨(e.2, i), List.mem_zipIdx_iff_getElem?.2 h1, by rw [← h2]⟩
  have key := receive_loop L p hp ps' [] none (fun e he => ?_) (by simpa using hlen') (by simp) (by simp) (by simp)
  · rw [hp1] at key
    simp only [List.length_nil, Nat.zero_mul, List.nil_append] at key
    refine key.mono fun r ⟨r1, x, r2, r3, r4⟩ => ⟨r1, x, r2, r3, fun j j1 j2 => ?_⟩
    have hlt : j / p < l.length := by
      rw [hlen, lt_numChunks (by omega)]
      have := Nat.div_mul_le_self j p
      omega
    have hin : (j / p * p, l[j / p]) ∈ ps' := (hmem _).2 ⟨j / p, by simp [hlt], rfl⟩
    have := r4 (j / p * p) (List.mem_map.2 ⟨_, hin, rfl⟩)
    refine this j j1 j2 (Nat.div_mul_le_self _ _) ?_
    have h1 := Nat.div_add_mod j p
    have h2 := Nat.mod_lt j (show 0 < p by omega)
    rw [Nat.mul_comm] at h1
    omega
  · obtain ⟨i, h1, h2⟩ := (hmem e).1 he
    have hi : i < l.length := (List.getElem?_eq_some_iff.1 h1).1
    refine ⟨by rw [h2]; exact hl i _ h1, ?_, by rw [h2]; exact (lt_numChunks (by omega)).1 (by omega)⟩
    rcases Nat.eq_zero_or_pos i with g | g
    · left; rw [h2, g]; simp
    · right
      have : p ≤ i * p := Nat.le_mul_of_pos_left _ g
      omega

end Verif.Ser

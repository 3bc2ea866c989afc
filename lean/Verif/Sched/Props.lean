import Verif.Sched.Lemmas
/-
  Properties C01 - C04.
-/
namespace Verif.Sched
open Verif.Spec

/-- **C01** for the code's own chunk-size formulas: for every scheme, minimum task size, number of rows, of threads (at least one)
    and of queues, the producer loop ends after at most `len` iterations without undefined behaviour; the tasks' row ranges are
    non-empty, consecutive and cover exactly the rows `0..len-1`, every row exactly once; the `k`-th task goes to queue
    `k mod numQueues`; every task but the last has at least the partitioner's minimum size.
    The floating-point derived constants `fl` are arbitrary; FISS needs at least two stages (see `C01_fiss_undefined`). -/
theorem C01_tasks_tile_rows (fl : FloatParts) (scheme : Scheme) (minimumTaskSize : Int)
    (len numThreads numQueues fuel : Nat) (hw : 0 < numThreads) (hfiss : scheme = .fiss → 2 ≤ fl.fissStages)
    (hfuel : len ≤ fuel) :
    ∃ ts, produceAll LP.rawChunk fl scheme minimumTaskSize len numThreads numQueues fuel = .ok (some ts) ∧
      Tiles 0 len (ts.map Task.range) ∧
      ExactCover 0 len (ts.map Task.range) ∧
      ts.length ≤ len ∧
      (∀ k (hk : k < ts.length), ts[k].queue = k % numQueues) ∧
      (scheme ≠ .auto → ∀ t ∈ ts, t.hi = len ∨ (1 ≤ t.hi - t.lo ∧ minimumTaskSize ≤ (t.hi - t.lo : Nat))) := by
  have hinv := mk'_inv scheme len (clampChunkParam minimumTaskSize) numThreads (scheme = .auto) fl
    (clamp_pos minimumTaskSize)
  obtain ⟨ts, e1, e2, em, e3⟩ := produce_spec rawChunk_stable numQueues fuel
    (LP.mk' scheme len (clampChunkParam minimumTaskSize) numThreads (scheme = .auto) fl) 0 0 ⟨hw, hfiss⟩ hinv
    (by simpa [LP.mk'] using hfuel)
  have hrem : (LP.mk' scheme len (clampChunkParam minimumTaskSize) numThreads (scheme = .auto) fl).remainingTasks = len := rfl
  rw [hrem, Nat.zero_add] at e2
  refine ⟨ts, e1, e2, e2.cover, by simpa using e2.length_le, by simpa using e3, ?_⟩
  intro hna t ht
  have := em t ht
  rw [hrem, Nat.zero_add] at this
  rcases this with h | h
  · exact Or.inl h
  · right
    have hcp : (LP.mk' scheme len (clampChunkParam minimumTaskSize) numThreads (scheme = .auto) fl).chunkParam =
        clampChunkParam minimumTaskSize := by simp [LP.mk', hna]
    rw [hcp] at h
    have hp := clamp_pos minimumTaskSize
    refine ⟨by omega, ?_⟩
    unfold clampChunkParam at h
    split at h <;> omega

example : ∃ fl : FloatParts, 0 < 4 ∧ (Scheme.fiss = .fiss → 2 ≤ fl.fissStages) ∧
    produceAll LP.rawChunk fl .gss 1 10 4 2 10 = .ok (some [⟨0, 3, 0⟩, ⟨3, 5, 1⟩, ⟨5, 7, 0⟩, ⟨7, 8, 1⟩, ⟨8, 9, 0⟩, ⟨9, 10, 1⟩]) :=
  ⟨⟨2, 3, 1, 0⟩, by decide, by decide, by rfl⟩

/-- **C01** for an arbitrary chunk-size formula (covers every rounding of the floating-point formulas and every value an
    invalid float-to-integer conversion may produce on a concrete machine). -/
theorem C01_tasks_tile_rows_any_formula (raw : LP → Nat) (fl : FloatParts) (scheme : Scheme) (minimumTaskSize : Int)
    (len numThreads numQueues fuel : Nat) (hfuel : len ≤ fuel) :
    ∃ ts, produceAll (fun s => .ok (raw s)) fl scheme minimumTaskSize len numThreads numQueues fuel = .ok (some ts) ∧
      Tiles 0 len (ts.map Task.range) ∧
      ExactCover 0 len (ts.map Task.range) ∧
      ts.length ≤ len ∧
      (∀ k (hk : k < ts.length), ts[k].queue = k % numQueues) := by
  have hinv := mk'_inv scheme len (clampChunkParam minimumTaskSize) numThreads (scheme = .auto) fl
    (clamp_pos minimumTaskSize)
  obtain ⟨ts, e1, e2, em, e3⟩ := produce_spec (oracle_stable raw) numQueues fuel
    (LP.mk' scheme len (clampChunkParam minimumTaskSize) numThreads (scheme = .auto) fl) 0 0 trivial hinv
    (by simpa [LP.mk'] using hfuel)
  have hrem : (LP.mk' scheme len (clampChunkParam minimumTaskSize) numThreads (scheme = .auto) fl).remainingTasks = len := rfl
  rw [hrem, Nat.zero_add] at e2
  exact ⟨ts, e1, e2, e2.cover, by simpa using e2.length_le, by simpa using e3⟩

/-- Finding: with at most as many rows as workers, the FISS scheme has a single stage and its chunk-size formula divides by
    zero (an infinite `double` converted to `uint64_t` is undefined behaviour). -/
theorem C01_fiss_undefined (fl : FloatParts) (minimumTaskSize : Int) (len numThreads numQueues fuel : Nat)
    (h0 : 0 < len) (hle : len ≤ numThreads)
    (hst : getStagesLoop len numThreads len 0 0 0 = some fl.fissStages) (hfuel : 0 < fuel) :
    Res.IsUB (produceAll LP.rawChunk fl .fiss minimumTaskSize len numThreads numQueues fuel) := by
  rw [getStages_few len numThreads hle h0 len 0 (by omega) (by omega)] at hst
  have hst : fl.fissStages = 1 := by simpa using hst.symm
  obtain ⟨f, rfl⟩ : ∃ f, fuel = f + 1 := ⟨fuel - 1, by omega⟩
  simp [produceAll, produce, LP.hasNext, LP.mk', h0, LP.rawChunk, hst, show numThreads ≠ 0 by omega, bind, Except.bind,
    divUp, Res.IsUB]

example : (0 < 3 ∧ 3 ≤ 4 ∧ getStagesLoop 3 4 3 0 0 0 = some 1) := by decide

/-- Finding: STATIC rounds the chunk size down, so 7 rows on 4 workers give 7 tasks instead of 4. -/
theorem C01_static_rounds_down (fl : FloatParts) :
    ∃ ts, produceAll LP.rawChunk fl .static 1 7 4 1 7 = .ok (some ts) ∧ ts.length = 7 :=
  ⟨[⟨0, 1, 0⟩, ⟨1, 2, 0⟩, ⟨2, 3, 0⟩, ⟨3, 4, 0⟩, ⟨4, 5, 0⟩, ⟨5, 6, 0⟩, ⟨6, 7, 0⟩], by
    simp [produceAll, produce, LP.mk', LP.hasNext, LP.rawChunk, divDown, LP.getNextWith, clampChunkParam, bind, Except.bind, pure,
      Except.pure], rfl⟩

/-- **C02**: with pre-partitioned rows, the tasks (in enqueue order: queue 0 first) tile `[0, len)`; queue `i` receives exactly
    the tasks of one contiguous block, the first block has `len/q + len%q` rows, the others `len/q`. -/
theorem C02_prepartition_tiles (fl : FloatParts) (scheme : Scheme) (minimumTaskSize : Int)
    (len numThreads numQueues fuel : Nat) (hw : 0 < numThreads) (hq : 0 < numQueues)
    (hfiss : scheme = .fiss → 2 ≤ fl.fissStages) (hfuel : len ≤ fuel) :
    ∃ ts, producePre LP.rawChunk fuel (prePartitioners fl scheme minimumTaskSize len numThreads numQueues) 0 0
        = .ok (some ts) ∧
      Tiles 0 len (ts.map Task.range) ∧
      ExactCover 0 len (ts.map Task.range) ∧
      (∀ t ∈ ts, t.queue < numQueues) ∧
      ∀ i, i < numQueues →
        Tiles (if i = 0 then 0 else i * (len / numQueues) + len % numQueues)
          ((i + 1) * (len / numQueues) + len % numQueues)
          ((ts.filter (fun t => t.queue = i)).map Task.range) := by
  have hdm := Nat.div_add_mod len numQueues
  have hmod : len - len / numQueues * numQueues = len % numQueues := by rw [Nat.mul_comm]; omega
  have hle : len / numQueues ≤ len := Nat.div_le_self _ _
  have hfirst : len / numQueues + len % numQueues ≤ len := by
    have : len / numQueues ≤ numQueues * (len / numQueues) := Nat.le_mul_of_pos_left _ hq
    omega
  have hall : ∀ lp ∈ prePartitioners fl scheme minimumTaskSize len numThreads numQueues,
      ChunkDefined lp ∧ lp.Inv ∧ lp.remainingTasks ≤ fuel := by
    intro lp hlp
    simp only [prePartitioners, hmod, List.mem_cons, List.mem_map] at hlp
    rcases hlp with rfl | ⟨_, _, rfl⟩
    · exact ⟨⟨hw, hfiss⟩, mk'_inv _ _ _ _ _ _ (clamp_pos _), by simp only [LP.mk']; omega⟩
    · exact ⟨⟨hw, hfiss⟩, mk'_inv _ _ _ _ _ _ (clamp_pos _), by simp only [LP.mk']; omega⟩
  have hlen : (prePartitioners fl scheme minimumTaskSize len numThreads numQueues).length = numQueues := by
    simp [prePartitioners]; omega
  have hsum : ∀ i, i < numQueues →
      remSum ((prePartitioners fl scheme minimumTaskSize len numThreads numQueues).take (i + 1)) =
        (i + 1) * (len / numQueues) + len % numQueues := by
    intro i hi
    simp only [prePartitioners, hmod, remSum, List.take_succ_cons, List.map_cons, List.sum_cons]
    have : ((((List.range (numQueues - 1)).map (fun _ => LP.mk' scheme (len / numQueues)
        (clampChunkParam minimumTaskSize) numThreads false fl)).take i).map LP.remainingTasks) =
        List.replicate i (len / numQueues) := by
      rw [← List.map_take, List.map_map]
      apply List.ext_getElem
      · simp; omega
      · intro j h1 h2; simp [LP.mk']
    rw [this]
    simp only [List.sum_replicate_nat, LP.mk']
    ring
  obtain ⟨ts, e1, e2, e3, e4⟩ := producePre_spec rawChunk_stable fuel _ 0 0 hall
  have htot : remSum (prePartitioners fl scheme minimumTaskSize len numThreads numQueues) = len := by
    have := hsum (numQueues - 1) (by omega)
    rw [show numQueues - 1 + 1 = numQueues by omega, List.take_of_length_le (by omega)] at this
    rw [this]; omega
  rw [Nat.zero_add, htot] at e2
  refine ⟨ts, e1, e2, e2.cover, fun t ht => by have := e3 t ht; omega, ?_⟩
  intro i hi
  have h4 := e4 i (by omega)
  rw [hsum i hi] at h4
  simp only [Nat.zero_add] at h4
  split
  · subst ‹i = 0›
    simpa [remSum] using h4
  · obtain ⟨j, rfl⟩ : ∃ j, i = j + 1 := ⟨i - 1, by omega⟩
    rw [hsum j (by omega)] at h4
    exact h4

example : ∃ fl : FloatParts, producePre LP.rawChunk 7 (prePartitioners fl .static 2 7 2 3) 0 0 =
    .ok (some [⟨0, 2, 0⟩, ⟨2, 3, 0⟩, ⟨3, 5, 1⟩, ⟨5, 7, 2⟩]) := ⟨⟨1, 1, 1, 0⟩, by rfl⟩

/-- **C03**: distributing `rows × cols` to `workers ≥ 1` workers: one range per worker, all columns, row ranges consecutive from
    0 to `rows` (each row exactly once), sizes differ by at most one. -/
theorem C03_distribute_balanced (rows cols workers : Nat) (hw : 0 < workers) :
    ∃ rs, distributedRanges .distribute rows cols workers = .ok rs ∧ rs.length = workers ∧
      (∀ r ∈ rs, r.cStart = 0 ∧ r.cLen = cols) ∧
      TilesE 0 rows (rs.map (fun r => (r.rStart, r.rStart + r.rLen))) ∧
      ExactCover 0 rows (rs.map (fun r => (r.rStart, r.rStart + r.rLen))) ∧
      (∀ r ∈ rs, ∀ r' ∈ rs, r.rLen ≤ r'.rLen + 1) := by
  let f := fun i => i * (rows / workers) + min i (rows % workers)
  let g : Nat → Range := fun i => { rStart := f i, cStart := 0, rLen := f (i + 1) - f i, cLen := cols }
  have hg : distributedRanges .distribute rows cols workers = .ok ((List.range workers).map g) := by
    apply mapM_ok; intro i _
    simp [createRange, Nat.pos_iff_ne_zero.1 hw, g, f]
  have hle : ∀ i, f i ≤ f (i + 1) := block_le rows workers
  have htile : TilesE 0 rows (((List.range workers).map g).map (fun r => (r.rStart, r.rStart + r.rLen))) := by
    have := tilesE_of_bounds f hle workers
    rw [show f 0 = 0 by simp [f], show f workers = rows from block_end rows workers hw] at this
    rw [List.map_map]
    convert this using 2
    funext i
    simp only [Function.comp, g]
    have := hle i
    congr 1; omega
  refine ⟨_, hg, by simp, ?_, htile, htile.cover, ?_⟩
  · intro r hr; simp only [List.mem_map] at hr; obtain ⟨i, _, rfl⟩ := hr; exact ⟨rfl, rfl⟩
  · have hb : ∀ r ∈ (List.range workers).map g, rows / workers ≤ r.rLen ∧ r.rLen ≤ rows / workers + 1 := by
      intro r hr; simp only [List.mem_map] at hr; obtain ⟨i, _, rfl⟩ := hr
      simp only [g, f]
      generalize rows / workers = k
      have : (i + 1) * k = i * k + k := by ring
      omega
    intro r hr r' hr'
    have := hb r hr; have := hb r' hr'; omega

/-- **C03** (broadcast): every worker gets the whole matrix. -/
theorem C03_broadcast_full (rows cols workers : Nat) :
    ∃ rs, distributedRanges .broadcast rows cols workers = .ok rs ∧ rs.length = workers ∧
      ∀ r ∈ rs, r = { rStart := 0, cStart := 0, rLen := rows, cLen := cols } := by
  refine ⟨(List.range workers).map (fun _ => _), mapM_ok _ _ _ (fun i _ => rfl), by simp, ?_⟩
  intro r hr; simp only [List.mem_map] at hr; obtain ⟨i, _, rfl⟩ := hr; rfl

example : distributedRanges .distribute 7 2 3 = .ok [⟨0, 0, 3, 2⟩, ⟨3, 0, 2, 2⟩, ⟨5, 0, 2, 2⟩] := by rfl
/-- Finding: an empty worker list makes the partitioner divide by zero as soon as a range is created. -/
theorem C03_no_workers_undefined (rows cols i : Nat) : Res.IsUB (createRange .distribute rows cols 0 i) := ⟨_, rfl⟩

/-- **C04** (row-combined output): the recorded ranges tile the rows in worker order, with all columns. -/
theorem C04_output_rows_tiled (rows cols workers : Nat) (hw : 0 < workers) :
    ∃ rs, outputRanges .rows rows cols workers = .ok rs ∧ rs.length = workers ∧
      (∀ r ∈ rs, r.cStart = 0 ∧ r.cLen = cols) ∧
      TilesE 0 rows (rs.map (fun r => (r.rStart, r.rStart + r.rLen))) ∧
      ExactCover 0 rows (rs.map (fun r => (r.rStart, r.rStart + r.rLen))) := by
  let f := fun i => i * (rows / workers) + min i (rows % workers)
  let g : Nat → Range := fun i => { rStart := f i, cStart := 0, rLen := f (i + 1) - f i, cLen := cols }
  have hg : outputRanges .rows rows cols workers = .ok ((List.range workers).map g) :=
    mapM_ok _ _ _ (fun i _ => by simp only [outputRange, g, f])
  have hle : ∀ i, f i ≤ f (i + 1) := block_le rows workers
  have htile : TilesE 0 rows (((List.range workers).map g).map (fun r => (r.rStart, r.rStart + r.rLen))) := by
    have := tilesE_of_bounds f hle workers
    rw [show f 0 = 0 by simp [f], show f workers = rows from block_end rows workers hw] at this
    rw [List.map_map]
    convert this using 2
    funext i
    simp only [Function.comp, g]
    have := hle i
    congr 1; omega
  refine ⟨_, hg, by simp, ?_, htile, htile.cover⟩
  intro r hr; simp only [List.mem_map] at hr; obtain ⟨i, _, rfl⟩ := hr; exact ⟨rfl, rfl⟩

/-- **C04** (column-combined or added output): the recorded ranges tile the columns in worker order, with all rows. -/
theorem C04_output_cols_tiled (comb : Combine) (hc : comb = .cols ∨ comb = .add) (rows cols workers : Nat) (hw : 0 < workers) :
    ∃ rs, outputRanges comb rows cols workers = .ok rs ∧ rs.length = workers ∧
      (∀ r ∈ rs, r.rStart = 0 ∧ r.rLen = rows) ∧
      TilesE 0 cols (rs.map (fun r => (r.cStart, r.cStart + r.cLen))) ∧
      ExactCover 0 cols (rs.map (fun r => (r.cStart, r.cStart + r.cLen))) := by
  let f := fun i => i * (cols / workers) + min i (cols % workers)
  let g : Nat → Range := fun i => { rStart := 0, rLen := rows, cStart := f i, cLen := f (i + 1) - f i }
  have hg : outputRanges comb rows cols workers = .ok ((List.range workers).map g) :=
    mapM_ok _ _ _ (fun i _ => by rcases hc with rfl | rfl <;> simp only [outputRange, g, f])
  have hle : ∀ i, f i ≤ f (i + 1) := block_le cols workers
  have htile : TilesE 0 cols (((List.range workers).map g).map (fun r => (r.cStart, r.cStart + r.cLen))) := by
    have := tilesE_of_bounds f hle workers
    rw [show f 0 = 0 by simp [f], show f workers = cols from block_end cols workers hw] at this
    rw [List.map_map]
    convert this using 2
    funext i
    simp only [Function.comp, g]
    have := hle i
    congr 1; omega
  refine ⟨_, hg, by simp, ?_, htile, htile.cover⟩
  intro r hr; simp only [List.mem_map] at hr; obtain ⟨i, _, rfl⟩ := hr; exact ⟨rfl, rfl⟩

/-- **C04** (rejection): any other combine is rejected as soon as there is a worker. -/
theorem C04_other_combines_throw (comb : Combine) (hc : comb = .min ∨ comb = .max) (rows cols workers : Nat) (hw : 0 < workers) :
    Res.Throws (outputRanges comb rows cols workers) := by
  obtain ⟨w, rfl⟩ : ∃ w, workers = w + 1 := ⟨workers - 1, by omega⟩
  unfold outputRanges
  rw [List.range_succ_eq_map, List.mapM_cons]
  rcases hc with rfl | rfl <;> simp [outputRange, bind, Except.bind, Res.Throws]

example : outputRanges .rows 7 2 3 = .ok [⟨0, 0, 3, 2⟩, ⟨3, 0, 2, 2⟩, ⟨5, 0, 2, 2⟩] ∧
    outputRanges .cols 2 5 2 = .ok [⟨0, 0, 2, 3⟩, ⟨0, 3, 2, 2⟩] := ⟨rfl, rfl⟩

end Verif.Sched

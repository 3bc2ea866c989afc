/-
  Reading a configuration file (C330).
-/
import Verif.Conf.Model
import Mathlib.Data.List.Nodup

namespace Verif.Conf

/-! ### Specification -/

/-- The setting a key of the configuration file is documented to concern: that of the same name. -/
def setting (cuda : Bool) : Key → Option Field
  | .use_cuda => some .use_cuda
  | .use_vectorized_exec => some .use_vectorized_exec
  | .use_vectorized_restricted => some .use_vectorized_restricted
  | .use_obj_ref_mgnt => some .use_obj_ref_mgnt
  | .use_optimistic_splitting => some .use_optimistic_splitting
  | .use_ipa_const_propa => some .use_ipa_const_propa
  | .use_phy_op_selection => some .use_phy_op_selection
  | .use_mlir_codegen => some .use_mlir_codegen
  | .use_columnar => some .use_columnar
  | .matmul_vec_size_bits => some .matmul_vec_size_bits
  | .matmul_tile => some .matmul_tile
  | .matmul_use_fixed_tile_sizes => some .matmul_use_fixed_tile_sizes
  | .matmul_fixed_tile_sizes => some .matmul_fixed_tile_sizes
  | .matmul_unroll_factor => some .matmul_unroll_factor
  | .matmul_unroll_jam_factor => some .matmul_unroll_jam_factor
  | .matmul_num_vec_registers => some .matmul_num_vec_registers
  | .matmul_invert_loops => some .matmul_invert_loops
  | .cuda_fuse_any => some .cuda_fuse_any
  | .vectorized_single_queue => some .vectorized_single_queue
  | .debug_llvm => some .debug_llvm
  | .explain_columnar => some .explain_columnar
  | .explain_kernels => some .explain_kernels
  | .explain_llvm => some .explain_llvm
  | .explain_parsing => some .explain_parsing
  | .explain_parsing_simplified => some .explain_parsing_simplified
  | .explain_property_inference => some .explain_property_inference
  | .explain_select_matrix_repr => some .explain_select_matrix_repr
  | .explain_transfer_data_props => some .explain_transfer_data_props
  | .explain_sql => some .explain_sql
  | .explain_phy_op_selection => some .explain_phy_op_selection
  | .explain_type_adaptation => some .explain_type_adaptation
  | .explain_vectorized => some .explain_vectorized
  | .explain_obj_ref_mgnt => some .explain_obj_ref_mgnt
  | .explain_mlir_codegen => some .explain_mlir_codegen
  | .explain_mlir_codegen_sparsity_exploiting_op_fusion => some .explain_mlir_codegen_sparsity_exploiting_op_fusion
  | .explain_mlir_codegen_daphneir_to_mlir => some .explain_mlir_codegen_daphneir_to_mlir
  | .explain_mlir_codegen_mlir_specific => some .explain_mlir_codegen_mlir_specific
  | .enable_property_recording => some .enable_property_recording
  | .enable_property_insert => some .enable_property_insert
  | .properties_file_path => some .properties_file_path
  | .taskPartitioningScheme => some .taskPartitioningScheme
  | .numberOfThreads => some .numberOfThreads
  | .minimumTaskSize => some .minimumTaskSize
  | .phyBatchSize => some .phyBatchSize
  | .useHdfs => some .use_hdfs
  | .hdfsAddress => some .hdfs_Address
  | .hdfsUsername => some .hdfs_username
  | .libdir => some .libdir
  | .daphnedsl_import_paths => some .daphnedsl_import_paths
  | .logging => some .loggers
  | .force_cuda => some .force_cuda
  | .sparsity_threshold => some .sparsity_threshold
  | .cuda_devices => if cuda then some .cuda_devices else none
  | .other _ => none

/-- The types of the settings. -/
def typeOf : Field → Kind
  | .matmul_vec_size_bits | .matmul_unroll_factor | .matmul_unroll_jam_factor | .matmul_num_vec_registers | .numberOfThreads | .minimumTaskSize => .int
  | .matmul_fixed_tile_sizes => .sizes
  | .properties_file_path | .hdfs_Address | .hdfs_username | .libdir => .string
  | .taskPartitioningScheme => .scheme
  | .phyBatchSize => .size
  | .cuda_devices => .devices
  | .daphnedsl_import_paths => .paths
  | .loggers => .logging
  | .sparsity_threshold => .float
  | _ => .bool

/-- Whether a key is one of the configuration file. -/
def Known : Key → Prop
  | .other _ => False
  | _ => True

variable {J : Type}

theorem known_params (k : Key) : (jsonParams.any (· = k)) = true ↔ Known k := by
  cases k
  case other s => simp [jsonParams, Known]
  all_goals simp [Known]; decide

theorem checkKeys_ok : ∀ f : File J, checkKeys f = .ok () ↔ ∀ e ∈ f, Known e.1 := by
  intro f
  induction f with
  | nil => simp [checkKeys]
  | cons e r ih =>
    obtain ⟨k, j⟩ := e
    rw [checkKeys]
    by_cases h : jsonParams.any (· = k)
    · rw [if_pos h, ih]
      simp [(known_params k).mp h]
    · rw [if_neg h]
      constructor
      · intro e; cases e
      · intro hh
        exact absurd ((known_params k).mpr (hh (k, j) (by simp))) h

theorem checkKeys_error (f : File J) (e : Err) (h : checkKeys f = .error e) : ∃ k j, (k, j) ∈ f ∧ ¬ Known k ∧ e = .unexpectedKey k := by
  induction f with
  | nil => cases h
  | cons a r ih =>
    obtain ⟨k, j⟩ := a
    rw [checkKeys] at h
    split at h
    · obtain ⟨k', j', h1, h2⟩ := ih h
      exact ⟨k', j', List.mem_cons_of_mem _ h1, h2⟩
    · rename_i hk
      refine ⟨k, j, by simp, fun hk' => hk ((known_params k).mpr hk'), ?_⟩
      cases h
      rfl

/-- Generic: a list of statements with different fields. -/
theorem foldlM_ok (conv : Kind → J → Option V) (f : File J) : ∀ (hs : List (Key × Field × Kind)) (c c' : Config), (hs.map (·.2.1)).Nodup →
    hs.foldlM (handle conv f) c = .ok c' →
    (∀ h ∈ hs, match f.lookup h.1 with
      | none => c' h.2.1 = c h.2.1
      | some j => conv h.2.2 j = some (c' h.2.1)) ∧
    ∀ x, x ∉ hs.map (·.2.1) → c' x = c x := by
  intro hs
  induction hs with
  | nil => intro c c' _ h; cases h; simp
  | cons a hs ih =>
    intro c c' hn h
    rw [List.map_cons, List.nodup_cons] at hn
    rw [List.foldlM_cons] at h
    cases ha : handle conv f c a with
    | error e => rw [ha] at h; cases h
    | ok c1 =>
      rw [ha] at h
      obtain ⟨h1, h2⟩ := ih c1 c' hn.2 h
      have h3 := h2 a.2.1 hn.1
      have hoth : ∀ x, x ≠ a.2.1 → c1 x = c x := by
        intro x hx
        unfold handle at ha
        split at ha
        · cases ha; rfl
        · split at ha
          · cases ha
          · cases ha; simp [set, hx]
      refine ⟨?_, ?_⟩
      · intro b hb
        rcases List.mem_cons.mp hb with rfl | hb
        · unfold handle at ha
          split at ha
          · rename_i e; rw [e]; cases ha; exact h3
          · rename_i j e
            rw [e]
            split at ha
            · cases ha
            · rename_i v hv
              cases ha
              simp only
              rw [h3, hv]
              simp [set]
        · have := h1 b hb
          have hne : b.2.1 ≠ a.2.1 := by
            intro e
            exact hn.1 (by rw [← e]; exact List.mem_map_of_mem hb)
          rw [hoth _ hne] at this
          exact this
      · intro x hx
        rw [List.map_cons, List.mem_cons, not_or] at hx
        rw [h2 x hx.2, hoth x hx.1]

theorem foldlM_total (conv : Kind → J → Option V) (f : File J) : ∀ (hs : List (Key × Field × Kind)) (c : Config),
    (∀ h ∈ hs, ∀ j, f.lookup h.1 = some j → (conv h.2.2 j).isSome) → ∃ c', hs.foldlM (handle conv f) c = .ok c' := by
  intro hs
  induction hs with
  | nil => intro c _; exact ⟨c, rfl⟩
  | cons a hs ih =>
    intro c h
    have : ∃ c1, handle conv f c a = .ok c1 := by
      unfold handle
      split
      · exact ⟨_, rfl⟩
      · rename_i j e
        have := h a (by simp) j e
        split
        · rename_i hn; rw [hn] at this; cases this
        · exact ⟨_, rfl⟩
    obtain ⟨c1, h1⟩ := this
    obtain ⟨c', h2⟩ := ih c1 fun b hb => h b (List.mem_cons_of_mem _ hb)
    exact ⟨c', by rw [List.foldlM_cons, h1]; exact h2⟩

theorem foldlM_error (conv : Kind → J → Option V) (f : File J) (e : Err) : ∀ (hs : List (Key × Field × Kind)) (c : Config),
    hs.foldlM (handle conv f) c = .error e → ∃ h ∈ hs, ∃ j, f.lookup h.1 = some j ∧ conv h.2.2 j = none ∧ e = .wrongType h.1 := by
  intro hs
  induction hs with
  | nil => intro c h; cases h
  | cons a hs ih =>
    intro c h
    rw [List.foldlM_cons] at h
    cases ha : handle conv f c a with
    | error e' =>
      rw [ha] at h
      cases h
      unfold handle at ha
      split at ha
      · cases ha
      · rename_i j hj
        split at ha
        · rename_i hn
          cases ha
          exact ⟨a, by simp, j, hj, hn, rfl⟩
        · cases ha
    | ok c1 =>
      rw [ha] at h
      obtain ⟨b, hb, r⟩ := ih c1 h
      exact ⟨b, List.mem_cons_of_mem _ hb, r⟩

theorem handlers_setting (cuda : Bool) : ∀ h ∈ handlers cuda, setting cuda h.1 = some h.2.1 ∧ typeOf h.2.1 = h.2.2 := by
  cases cuda <;> decide +kernel

theorem handlers_fields (cuda : Bool) : ((handlers cuda).map (·.2.1)).Nodup := by
  cases cuda <;> decide +kernel

theorem setting_handlers (cuda : Bool) (k : Key) (x : Field) (h : setting cuda k = some x) : (k, x, typeOf x) ∈ handlers cuda := by
  cases k
  case cuda_devices =>
    cases cuda
    · cases h
    · cases h; decide +kernel
  case other s => cases h
  all_goals (cases h; cases cuda <;> decide +kernel)

/-- **C330.** A configuration file with a key that is none of the documented ones is rejected, naming such a key; one with a value that is not of the type of its setting is rejected, naming such a
key; any other is accepted. If it is accepted, the settings named in the file have exactly the values given for them there, and all other settings keep their values. -/
theorem C330_config_file (cuda : Bool) (conv : Kind → J → Option V) (f : File J) (c : Config) :
    ((∃ c', readUserConfig cuda conv f c = .ok c') ↔
      (∀ e ∈ f, Known e.1) ∧ ∀ k x j, setting cuda k = some x → f.lookup k = some j → (conv (typeOf x) j).isSome) ∧
    (∀ e, readUserConfig cuda conv f c = .error e → (∃ k j, (k, j) ∈ f ∧ ¬ Known k ∧ e = .unexpectedKey k) ∨
      ∃ k x j, setting cuda k = some x ∧ f.lookup k = some j ∧ conv (typeOf x) j = none ∧ e = .wrongType k) ∧
    (∀ c', readUserConfig cuda conv f c = .ok c' →
      (∀ k x j, setting cuda k = some x → f.lookup k = some j → conv (typeOf x) j = some (c' x)) ∧
      ∀ x, (∀ k, setting cuda k = some x → f.lookup k = none) → c' x = c x) := by
  have hok : ∀ c', readUserConfig cuda conv f c = .ok c' → checkKeys f = .ok () ∧ (handlers cuda).foldlM (handle conv f) c = .ok c' := by
    intro c' h
    unfold readUserConfig at h
    cases hk : checkKeys f with
    | error e => rw [hk] at h; cases h
    | ok u => rw [hk] at h; exact ⟨rfl, h⟩
  have hval : ∀ c', readUserConfig cuda conv f c = .ok c' →
      ∀ k x j, setting cuda k = some x → f.lookup k = some j → conv (typeOf x) j = some (c' x) := by
    intro c' h k x j hs hj
    have := (foldlM_ok conv f _ c c' (handlers_fields cuda) (hok c' h).2).1 _ (setting_handlers cuda k x hs)
    simp only [hj] at this
    exact this
  refine ⟨⟨?_, ?_⟩, ?_, ?_⟩
  · rintro ⟨c', h⟩
    refine ⟨(checkKeys_ok f).mp (hok c' h).1, fun k x j hs hj => ?_⟩
    rw [hval c' h k x j hs hj]
    rfl
  · rintro ⟨h1, h2⟩
    obtain ⟨c', h3⟩ := foldlM_total conv f (handlers cuda) c fun h hh j hj => by
      obtain ⟨e1, e2⟩ := handlers_setting cuda h hh
      rw [← e2]
      exact h2 h.1 h.2.1 j e1 hj
    exact ⟨c', by unfold readUserConfig; rw [(checkKeys_ok f).mpr h1]; exact h3⟩
  · intro e h
    unfold readUserConfig at h
    cases hk : checkKeys f with
    | error e' =>
      rw [hk] at h
      cases h
      exact .inl (checkKeys_error f e hk)
    | ok u =>
      rw [hk] at h
      obtain ⟨a, ha, j, h1, h2, h3⟩ := foldlM_error conv f e _ c h
      obtain ⟨e1, e2⟩ := handlers_setting cuda a ha
      exact .inr ⟨a.1, a.2.1, j, e1, h1, by rw [e2]; exact h2, h3⟩
  · intro c' h
    refine ⟨hval c' h, fun x hx => ?_⟩
    obtain ⟨h1, h2⟩ := foldlM_ok conv f _ c c' (handlers_fields cuda) (hok c' h).2
    by_cases hm : x ∈ (handlers cuda).map (·.2.1)
    · obtain ⟨a, ha, rfl⟩ := List.mem_map.mp hm
      have := h1 a ha
      rw [hx a.1 (handlers_setting cuda a ha).1] at this
      exact this
    · exact h2 x hm

/-- `{"numberOfThreads": 3, "debug_llvm": true}` is accepted; `{"use_distributed": true}` is not. -/
def conv0 : Kind → V → Option V
  | .bool, .b x => some (.b x)
  | .int, .i n => some (.i n)
  | _, _ => none

example : (readUserConfig false conv0 [(.numberOfThreads, .i 3), (.debug_llvm, .b true)] fun _ => .b false).toOption.map (fun c => (c .numberOfThreads, c .debug_llvm, c .use_cuda)) =
    some (.i 3, .b true, .b false) := by decide +kernel
example : (readUserConfig false conv0 [(.other ['x'], .b true)] fun _ => .b false).toOption.isSome = false := by decide +kernel

end Verif.Conf

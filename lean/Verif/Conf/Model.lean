/-
  The user configuration: src/parser/config/ConfigParser.cpp, src/parser/config/JsonParams.h, src/api/cli/DaphneUserConfig.h,
  and the processing of the command line in src/api/internal/daphne_internal.cpp.
-/
import Mathlib.Data.List.Basic

namespace Verif.Conf

/-- The values of settings: truth values, integers, strings, lists of integers, enumerators, and everything else. -/
inductive V where
  | b (x : Bool)
  | i (n : Int)
  | s (t : List Char)
  | l (ns : List Nat)
  | e (n : Nat)
  | o (n : Nat)
  deriving DecidableEq

/-- The keys of a configuration file: those named in `DaphneConfigJsonParams` (JsonParams.h:27-80), and all others. -/
inductive Key where
  | use_cuda | use_vectorized_exec | use_vectorized_restricted | use_obj_ref_mgnt | use_optimistic_splitting | use_ipa_const_propa
  | use_phy_op_selection | use_mlir_codegen | use_columnar | matmul_vec_size_bits | matmul_tile | matmul_use_fixed_tile_sizes
  | matmul_fixed_tile_sizes | matmul_unroll_factor | matmul_unroll_jam_factor | matmul_num_vec_registers | matmul_invert_loops | cuda_fuse_any
  | vectorized_single_queue | debug_llvm | explain_columnar | explain_kernels | explain_llvm | explain_parsing | explain_parsing_simplified
  | explain_property_inference | explain_select_matrix_repr | explain_transfer_data_props | explain_sql | explain_phy_op_selection
  | explain_type_adaptation | explain_vectorized | explain_obj_ref_mgnt | explain_mlir_codegen | explain_mlir_codegen_sparsity_exploiting_op_fusion
  | explain_mlir_codegen_daphneir_to_mlir | explain_mlir_codegen_mlir_specific | enable_property_recording | enable_property_insert
  | properties_file_path | taskPartitioningScheme | numberOfThreads | minimumTaskSize | phyBatchSize | useHdfs | hdfsAddress | hdfsUsername
  | cuda_devices | libdir | daphnedsl_import_paths | logging | force_cuda | sparsity_threshold
  | other (name : List Char)
  deriving DecidableEq

/-- The fields of `DaphneUserConfig` (DaphneUserConfig.h:36-121) that are set from the configuration file or the command line (`log_level_limit` is part of `loggers`). -/
inductive Field where
  | use_cuda | use_vectorized_exec | use_vectorized_restricted | use_obj_ref_mgnt | use_optimistic_splitting | use_ipa_const_propa
  | use_phy_op_selection | use_mlir_codegen | use_columnar | matmul_vec_size_bits | matmul_tile | matmul_use_fixed_tile_sizes
  | matmul_fixed_tile_sizes | matmul_unroll_factor | matmul_unroll_jam_factor | matmul_num_vec_registers | matmul_invert_loops | cuda_fuse_any
  | vectorized_single_queue | debug_llvm | explain_columnar | explain_kernels | explain_llvm | explain_parsing | explain_parsing_simplified
  | explain_property_inference | explain_select_matrix_repr | explain_transfer_data_props | explain_sql | explain_phy_op_selection
  | explain_type_adaptation | explain_vectorized | explain_obj_ref_mgnt | explain_mlir_codegen | explain_mlir_codegen_sparsity_exploiting_op_fusion
  | explain_mlir_codegen_daphneir_to_mlir | explain_mlir_codegen_mlir_specific | enable_property_recording | enable_property_insert
  | properties_file_path | taskPartitioningScheme | numberOfThreads | minimumTaskSize | phyBatchSize | use_hdfs | hdfs_Address | hdfs_username
  | cuda_devices | libdir | daphnedsl_import_paths | loggers | force_cuda | sparsity_threshold | use_distributed | use_mlir_hybrid_codegen
  | queueSetupScheme | victimSelection | pinWorkers | hyperthreadingEnabled | debugMultiThreading | prePartitionRows | distributedBackEndSetup
  | max_distributed_serialization_chunk_size | enable_statistics | use_fpgaopencl | enable_profiling
  deriving DecidableEq

/-- The C++ types the values of keys are converted to. -/
inductive Kind where
  | bool | int | size | float | string | sizes | devices | paths | logging | scheme
  deriving DecidableEq

/-- The array `JSON_PARAMS` — JsonParams.h:82-134. -/
def jsonParams : List Key := [
  .matmul_vec_size_bits, .matmul_tile, .matmul_fixed_tile_sizes, .matmul_use_fixed_tile_sizes, .matmul_unroll_factor, .matmul_unroll_jam_factor,
  .matmul_num_vec_registers, .matmul_invert_loops, .use_cuda, .use_vectorized_exec, .use_vectorized_restricted, .use_obj_ref_mgnt,
  .use_optimistic_splitting, .use_ipa_const_propa, .use_phy_op_selection, .use_mlir_codegen, .use_columnar, .cuda_fuse_any, .vectorized_single_queue,
  .debug_llvm, .explain_columnar, .explain_kernels, .explain_llvm, .explain_parsing, .explain_parsing_simplified, .explain_property_inference,
  .explain_select_matrix_repr, .explain_transfer_data_props, .explain_sql, .explain_phy_op_selection, .explain_type_adaptation, .explain_vectorized,
  .explain_mlir_codegen, .explain_mlir_codegen_sparsity_exploiting_op_fusion, .explain_mlir_codegen_daphneir_to_mlir,
  .explain_mlir_codegen_mlir_specific, .explain_obj_ref_mgnt, .enable_property_insert, .enable_property_recording, .properties_file_path,
  .taskPartitioningScheme, .numberOfThreads, .minimumTaskSize, .phyBatchSize, .useHdfs, .hdfsAddress, .hdfsUsername, .cuda_devices, .libdir,
  .daphnedsl_import_paths, .logging, .force_cuda, .sparsity_threshold]

/-- The statements of `readUserConfig` — ConfigParser.cpp:41-183 — in their order: key, field, and type; those for `cuda_devices` are compiled only with CUDA. -/
def handlers (cuda : Bool) : List (Key × Field × Kind) := [
  (.use_cuda, .use_cuda, .bool), (.use_vectorized_exec, .use_vectorized_exec, .bool),
  (.use_vectorized_restricted, .use_vectorized_restricted, .bool), (.use_obj_ref_mgnt, .use_obj_ref_mgnt, .bool),
  (.use_optimistic_splitting, .use_optimistic_splitting, .bool), (.use_ipa_const_propa, .use_ipa_const_propa, .bool),
  (.use_phy_op_selection, .use_phy_op_selection, .bool), (.use_mlir_codegen, .use_mlir_codegen, .bool), (.use_columnar, .use_columnar, .bool),
  (.matmul_vec_size_bits, .matmul_vec_size_bits, .int), (.matmul_tile, .matmul_tile, .bool),
  (.matmul_use_fixed_tile_sizes, .matmul_use_fixed_tile_sizes, .bool), (.matmul_fixed_tile_sizes, .matmul_fixed_tile_sizes, .sizes),
  (.matmul_unroll_factor, .matmul_unroll_factor, .int), (.matmul_unroll_jam_factor, .matmul_unroll_jam_factor, .int),
  (.matmul_num_vec_registers, .matmul_num_vec_registers, .int), (.matmul_invert_loops, .matmul_invert_loops, .bool),
  (.cuda_fuse_any, .cuda_fuse_any, .bool), (.vectorized_single_queue, .vectorized_single_queue, .bool), (.debug_llvm, .debug_llvm, .bool),
  (.explain_columnar, .explain_columnar, .bool), (.explain_kernels, .explain_kernels, .bool), (.explain_llvm, .explain_llvm, .bool),
  (.explain_parsing, .explain_parsing, .bool), (.explain_parsing_simplified, .explain_parsing_simplified, .bool),
  (.explain_property_inference, .explain_property_inference, .bool), (.explain_select_matrix_repr, .explain_select_matrix_repr, .bool),
  (.explain_transfer_data_props, .explain_transfer_data_props, .bool), (.explain_sql, .explain_sql, .bool),
  (.explain_phy_op_selection, .explain_phy_op_selection, .bool), (.explain_type_adaptation, .explain_type_adaptation, .bool),
  (.explain_vectorized, .explain_vectorized, .bool), (.explain_obj_ref_mgnt, .explain_obj_ref_mgnt, .bool),
  (.explain_mlir_codegen, .explain_mlir_codegen, .bool),
  (.explain_mlir_codegen_sparsity_exploiting_op_fusion, .explain_mlir_codegen_sparsity_exploiting_op_fusion, .bool),
  (.explain_mlir_codegen_daphneir_to_mlir, .explain_mlir_codegen_daphneir_to_mlir, .bool),
  (.explain_mlir_codegen_mlir_specific, .explain_mlir_codegen_mlir_specific, .bool), (.enable_property_recording, .enable_property_recording, .bool),
  (.enable_property_insert, .enable_property_insert, .bool), (.properties_file_path, .properties_file_path, .string),
  (.taskPartitioningScheme, .taskPartitioningScheme, .scheme), (.numberOfThreads, .numberOfThreads, .int),
  (.minimumTaskSize, .minimumTaskSize, .int), (.phyBatchSize, .phyBatchSize, .size), (.useHdfs, .use_hdfs, .bool),
  (.hdfsAddress, .hdfs_Address, .string), (.hdfsUsername, .hdfs_username, .string), 
  (.libdir, .libdir, .string), (.daphnedsl_import_paths, .daphnedsl_import_paths, .paths), (.logging, .loggers, .logging),
  (.force_cuda, .force_cuda, .bool), (.sparsity_threshold, .sparsity_threshold, .float)] ++
  (if cuda then [(.cuda_devices, .cuda_devices, .devices)] else [])

abbrev Config := Field → V

def set (c : Config) (f : Field) (v : V) : Config := fun g => if g = f then v else c g

inductive Err where
  | unexpectedKey (k : Key)
  | wrongType (k : Key)
  | malformed
  | needsColumnar | needsHdfs | exclusive | needsMpi | needsPapi
  deriving DecidableEq

variable {J : Type}

/-- A JSON object. -/
abbrev File (J : Type) := List (Key × J)

/-- `checkAnyUnexpectedKeys` — ConfigParser.cpp:187-202. -/
def checkKeys : File J → Except Err Unit
  | [] => .ok ()
  | (k, _) :: r => if jsonParams.any (· = k) then checkKeys r else .error (.unexpectedKey k)

/-- One statement of `readUserConfig`. `conv` is `get<T>()`, `none` if it throws; the invalid enumerator of `SelfSchedulingScheme` throws as well (ConfigParser.cpp:131-138). -/
def handle (conv : Kind → J → Option V) (f : File J) (c : Config) (h : Key × Field × Kind) : Except Err Config :=
  match f.lookup h.1 with
  | none => .ok c
  | some j =>
    match conv h.2.2 j with
    | none => .error (.wrongType h.1)
    | some v => .ok (set c h.2.1 v)

/-- `ConfigParser::readUserConfig` — ConfigParser.cpp:41-183. -/
def readUserConfig (cuda : Bool) (conv : Kind → J → Option V) (f : File J) (c : Config) : Except Err Config := do
  checkKeys f
  (handlers cuda).foldlM (handle conv f) c

/-! ### The command line -/

/-- The options — daphne_internal.cpp:134-375. -/
inductive Opt where
  | vec | vecRestricted | distributed | noObjRefMgnt | noIpaConstPropa | noPhyOpSelection | codegen | matmulVecSizeBits | matmulTile
  | matmulUnrollFactor | matmulUnrollJamFactor | matmulNumVecRegisters | matmulInvertLoops | matmulFixedTileSizes | hybridCodegen | libdir
  | partitioning | queueLayout | victimSelection | numThreads | grainSize | phyBatchSize | pinWorkers | hyperthreading | debugMt | prePartition
  | distBackend | columnar | optimisticSplitting | maxDistrChunkSize | enableHdfs | hdfsIp | hdfsUsername | enablePropertyRecording
  | enablePropertyInsert | propertiesFilePath | statistics | cuda | fpgaopencl | enableProfiling
  deriving DecidableEq

/-- The values of options that are not given. -/
def dflt : Opt → V
  | .matmulVecSizeBits => .i 0
  | .matmulUnrollFactor => .i 1
  | .matmulUnrollJamFactor => .i 4
  | .matmulNumVecRegisters => .i 16
  | .matmulFixedTileSizes => .l []
  | .libdir => .s []
  | .partitioning => .e 0
  | .queueLayout => .e 0
  | .victimSelection => .e 0
  | .numThreads => .i 0
  | .grainSize => .i 1
  | .phyBatchSize => .i 98304
  | .distBackend => .e 0
  | .maxDistrChunkSize => .i 2147482623
  | .hdfsIp => .s []
  | .hdfsUsername => .s []
  | .propertiesFilePath => .s ['p', 'r', 'o', 'p', 'e', 'r', 't', 'i', 'e', 's', '.', 'j', 's', 'o', 'n']
  | _ => .b false

/-- The parsed command line: the options that are given, and the fields for the arguments of `--explain`. -/
structure Cli where
  given : Opt → Option V
  explain : List Field

def Cli.val (cli : Cli) (o : Opt) : V := (cli.given o).getD (dflt o)

/-- How DAPHNE was built, and the number of CUDA devices. -/
structure Build where
  cuda : Bool
  hdfs : Bool
  mpi : Bool
  papi : Bool
  devices : Nat

def neg : V → V
  | .b x => .b (!x)
  | v => v

/-- An assignment that is executed only for a value other than the default. -/
def unlessDflt (cli : Cli) (o : Opt) (v : V) : Option V := if cli.val o = dflt o then none else some v

/-- The assignments of `startDAPHNE` before `--explain` is processed — daphne_internal.cpp:417-487: field and value, `none` if the assignment is not executed. -/
def assigns (cli : Cli) : List (Field × Option V) := [
  (.use_vectorized_exec, some (cli.val .vec)),
  (.use_vectorized_restricted, some (cli.val .vecRestricted)),
  (.use_distributed, some (cli.val .distributed)),
  (.use_obj_ref_mgnt, some (neg (cli.val .noObjRefMgnt))),
  (.use_ipa_const_propa, some (neg (cli.val .noIpaConstPropa))),
  (.use_phy_op_selection, some (neg (cli.val .noPhyOpSelection))),
  (.use_mlir_codegen, some (cli.val .codegen)),
  (.matmul_vec_size_bits, some (cli.val .matmulVecSizeBits)),
  (.matmul_tile, some (cli.val .matmulTile)),
  (.matmul_unroll_factor, some (cli.val .matmulUnrollFactor)),
  (.matmul_unroll_jam_factor, some (cli.val .matmulUnrollJamFactor)),
  (.matmul_num_vec_registers, some (cli.val .matmulNumVecRegisters)),
  (.matmul_invert_loops, some (cli.val .matmulInvertLoops)),
  (.matmul_use_fixed_tile_sizes, unlessDflt cli .matmulFixedTileSizes (.b true)),
  (.matmul_fixed_tile_sizes, unlessDflt cli .matmulFixedTileSizes (cli.val .matmulFixedTileSizes)),
  (.matmul_tile, unlessDflt cli .matmulFixedTileSizes (.b true)),
  (.use_mlir_hybrid_codegen, some (cli.val .hybridCodegen)),
  (.libdir, unlessDflt cli .libdir (cli.val .libdir)),
  (.taskPartitioningScheme, some (cli.val .partitioning)),
  (.queueSetupScheme, some (cli.val .queueLayout)),
  (.victimSelection, some (cli.val .victimSelection)),
  (.numberOfThreads, unlessDflt cli .numThreads (cli.val .numThreads)),
  (.minimumTaskSize, some (cli.val .grainSize)),
  (.phyBatchSize, some (cli.val .phyBatchSize)),
  (.pinWorkers, some (cli.val .pinWorkers)),
  (.hyperthreadingEnabled, some (cli.val .hyperthreading)),
  (.debugMultiThreading, some (cli.val .debugMt)),
  (.prePartitionRows, some (cli.val .prePartition)),
  (.distributedBackEndSetup, some (cli.val .distBackend)),
  (.use_columnar, some (cli.val .columnar)),
  (.use_optimistic_splitting, some (cli.val .optimisticSplitting)),
  (.max_distributed_serialization_chunk_size, some (cli.val .maxDistrChunkSize)),
  (.use_hdfs, unlessDflt cli .enableHdfs (cli.val .enableHdfs)),
  (.hdfs_Address, unlessDflt cli .hdfsIp (cli.val .hdfsIp)),
  (.hdfs_username, unlessDflt cli .hdfsUsername (cli.val .hdfsUsername))]

/-- The assignments behind — daphne_internal.cpp:547-604. Without CUDA, the number of devices stays zero. -/
def assigns2 (bld : Build) (cli : Cli) : List (Field × Option V) := [
  (.enable_property_recording, some (cli.val .enablePropertyRecording)),
  (.enable_property_insert, some (cli.val .enablePropertyInsert)),
  (.properties_file_path, some (cli.val .propertiesFilePath)),
  (.enable_statistics, some (cli.val .statistics)),
  (.use_cuda, if cli.val .cuda = .b true ∧ bld.cuda ∧ 1 ≤ bld.devices then some (.b true) else none),
  (.use_fpgaopencl, unlessDflt cli .fpgaopencl (.b true)),
  (.enable_profiling, unlessDflt cli .enableProfiling (.b true))]

def assign (c : Config) (a : Field × Option V) : Config :=
  match a.2 with
  | none => c
  | some v => set c a.1 v

def runAssigns (c : Config) (l : List (Field × Option V)) : Config := l.foldl assign c

/-- `std::filesystem::path::operator/` for a directory and a path. -/
def joinPath (dir rest : List Char) : List Char :=
  if rest.head? = some '/' then rest
  else if dir = [] ∨ dir.getLast? = some '/' then dir ++ rest
  else dir ++ '/' :: rest

/-- `{exedir}/` -/
def placeholder : List Char := ['{', 'e', 'x', 'e', 'd', 'i', 'r', '}', '/']

/-- `resolveLibDir` — DaphneUserConfig.h:147-154; `exe` is the directory of the executable. -/
def resolveLibDir (exe : List Char) : V → V
  | .s t => if t.take placeholder.length = placeholder then .s (joinPath exe (t.drop placeholder.length)) else .s t
  | v => v

/-- The processing of the command line in `startDAPHNE` — daphne_internal.cpp:417-608: the errors are thrown in the order of the text. `resolveLibDir` is called right behind the assignment of
`libdir`, which is not assigned again (so it is last here). -/
def process (bld : Build) (exe : List Char) (cli : Cli) (c : Config) : Except Err Config :=
  let c1 := runAssigns c (assigns cli)
  if cli.val .optimisticSplitting = .b true ∧ cli.val .columnar = .b false then .error .needsColumnar
  else if bld.hdfs = false ∧ c1 .use_hdfs = .b true then .error .needsHdfs
  else
    let c2 := runAssigns c1 (cli.explain.map fun f => (f, some (.b true)))
    let c3 := runAssigns c2 (assigns2 bld cli)
    if c3 .enable_property_recording = .b true ∧ c3 .enable_property_insert = .b true then .error .exclusive
    else if c3 .use_distributed = .b true ∧ cli.val .distBackend = .e 0 ∧ bld.mpi = false then .error .needsMpi
    else if cli.val .enableProfiling = .b true ∧ bld.papi = false then .error .needsPapi
    else .ok (set c3 .libdir (resolveLibDir exe (c3 .libdir)))

/-- The argument of `--config`: not given, a file that cannot be opened, one that is not JSON, or one with an object. -/
inductive ConfArg (J : Type) where
  | absent
  | unreadable
  | malformed
  | obj (f : File J)

/-- The configuration a script is run with — daphne_internal.cpp:405-608; `c0` are the initial values of the fields. -/
def startup (bld : Build) (exe : List Char) (conv : Kind → J → Option V) (c0 : Config) (arg : ConfArg J) (cli : Cli) : Except Err Config := do
  let c ← match arg with
    | .absent => .ok c0
    | .unreadable => .ok c0
    | .malformed => .error .malformed
    | .obj f => readUserConfig bld.cuda conv f c0
  process bld exe cli c

/-! ### Arguments of scripts and kernel extensions -/

/-- `str.find(ch)` and the two parts. -/
def splitFirst (ch : Char) : List Char → Option (List Char × List Char)
  | [] => none
  | x :: r => if x = ch then some ([], r) else (splitFirst ch r).map fun q => (x :: q.1, q.2)

/-- `parseScriptArgs` — daphne_internal.cpp:65-79; the map is kept as a list, `none` if an error is thrown. -/
def parseScriptArgs : List (List Char) → List (List Char × List Char) → Option (List (List Char × List Char))
  | [], m => some m
  | p :: r, m =>
    match splitFirst '=' p with
    | none => none
    | some (n, v) => if m.any (·.1 = n) then none else parseScriptArgs r (m ++ [(n, v)])

/-- Both lists of arguments — daphne_internal.cpp:611-614: the positional ones, then those of `--args`. -/
def scriptArgs (positional args : List (List Char)) : Option (List (List Char × List Char)) :=
  (parseScriptArgs positional []).bind (parseScriptArgs args)

/-- The leading digits and what follows. -/
def spanDigits : List Char → List Nat × List Char
  | [] => ([], [])
  | c :: r => if '0'.toNat ≤ c.toNat ∧ c.toNat ≤ '9'.toNat then let q := spanDigits r; ((c.toNat - '0'.toNat) :: q.1, q.2) else ([], c :: r)

/-- White space (`isspace` in the C locale). -/
def isSpace (c : Char) : Bool := c = ' ' || (9 ≤ c.toNat && c.toNat ≤ 13)

/-- `std::stoll(s, &idx)` with the remaining characters; `none` if there is no integer or it is out of range. -/
def stoll (s : List Char) : Option (Int × List Char) :=
  let s := s.dropWhile isSpace
  let (sgn, s) := match s with
    | '-' :: r => ((-1 : Int), r)
    | '+' :: r => (1, r)
    | s => (1, s)
  match spanDigits s with
  | ([], _) => none
  | (ds, rest) =>
    let n : Int := sgn * (ds.foldl (fun a d => 10 * a + d) 0 : Nat)
    if -9223372036854775808 ≤ n ∧ n ≤ 9223372036854775807 then some (n, rest) else none

/-- `--kernel-ext` — daphne_internal.cpp:637-664: the catalog file and the priority; `none` if an error is thrown. `rfind` is done on the reversed text. -/
def kernelExt (t : List Char) : Option (List Char × Int) :=
  match splitFirst ':' t.reverse with
  | none => some (t, 0)
  | some (p, f) =>
    match stoll p.reverse with
    | some (n, []) => some (f.reverse, n)
    | _ => none

end Verif.Conf

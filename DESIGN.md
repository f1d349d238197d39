# Formal model of libffi in Lean 4 — design

Target: the libffi sources pinned in `/repo`.  Everything below was obtained by
reading the C and assembly text; nothing of libffi is built or executed.

## Trusted base

* The Lean 4.33.0 kernel and the standard axioms `propext`, `Classical.choice`,
  `Quot.sound` (the list per theorem is printed by `#print axioms`, see
  `lean/Verif/Axioms.lean`).  No own axioms, no `sorry`, no
  `native_decide`/`bv_decide`.
* The transcription of C/assembly into Lean definitions: every definition cites
  the file and lines it models.  C semantics are modelled as follows:
  * `size_t`/pointers: natural numbers or 64-bit words as noted at the
    definition; `FFI_ALIGN` is modelled bit-exactly on 64-bit words.
  * memory buffers: a size plus a byte function; a write or read outside a
    buffer is an explicit failure (`none`), never a silent no-op, so
    "the call returns `some`" includes "no out-of-bounds access".
  * `abort()` and failed assertions that change control flow are explicit
    failures.  `FFI_ASSERT` is a no-op (release build, `FFI_DEBUG` undefined).
* The specifications (`Verif/Spec/*.lean`), which are independent of the model
  helpers.

## Layers

| layer | modelled code | not modelled / simplified |
|---|---|---|
| `Verif/Base` | bytes, little/big endian, buffers, `FFI_ALIGN` (include/ffi_common.h) | |
| `Verif/Core` | type descriptors on a heap, `initialize_aggregate`, `ffi_prep_cif_core`, `ffi_prep_cif_var`, `ffi_get_struct_offsets` (src/prep_cif.c); `Tree`: descriptors unfolded to type trees | target-specific `ffi_prep_cif_machdep` is a parameter here and modelled per target; plugged in by `Props/Tree` |
| `Verif/X64` | SysV x86-64: `Model` (classification, `ffi_call_int`, register loads and stores of unix64.S), `Ret*` (return tables), `PrepLemmas`, `ResultLemmas`, `Tramp*` (instruction-level trampolines) (src/x86/ffi64.c, unix64.S); `Asm*`: all of unix64.S as items that an assembler function lays out, executed instruction by instruction with interruptions, CET and the unwind tables | lengths of instructions are given with them (from the encoding), not derived; addresses do not wrap at 2^64; the compact unwind tables of Darwin |
| `Verif/Win64` | Windows x64, flat memory (src/x86/ffiw64.c, win64.S); `Asm*`: all of win64.S as items that an assembler function lays out, executed instruction by instruction with interruptions, CET, call frame directives and unwind codes | win64_intel.S; lengths of instructions are given; addresses do not wrap at 2^64; the static trampoline of Windows (none exists) |
| `Verif/AArch64` | AArch64 LP64, AAPCS64, Apple and `FFI_WIN64` variants, flat memory: `is_vfp_type`, `ffi_prep_cif_machdep`, `ffi_call_int`, `ffi_closure_SYSV_inner` (src/aarch64/ffi.c), register loads, stores and return tables of sysv.S; `Tramp*`: dynamic, static and Mach trampolines instruction by instruction; `Asm*`: the entry points of sysv.S instruction by instruction, with pointer authentication and interruptions | ILP32, big endian; signing of function pointers on arm64e; the Windows ARM64 return of structs through x0 |
| `Verif/RiscV` | RISC-V, all six ABIs (ILP32/LP64 with no, single or double float registers), flat memory: `struct_passed_as_elements`, `marshal`, `unmarshal`, `ffi_call_int`, `ffi_closure_inner` (src/riscv/ffi.c), register loads and stores of sysv.S; `Asm*`: trampoline, `ffi_call_asm`, `ffi_closure_asm`, `ffi_go_closure_asm` instruction by instruction, with interruptions (`AsmInt`) and the call frame directives (`AsmCfi`) | RV32E, quad float registers; the compiler's own frame in `ffi_closure_inner` |
| `Verif/LoongArch` | LoongArch64 with and without float registers, flat memory: `marshal`, `unmarshal`, `allocate_and_copy_struct_to_stack`, `ffi_call_int`, `ffi_closure_inner` (src/loongarch64/ffi.c), register loads and stores of sysv.S; code shared with src/riscv/ffi.c is the model of `Verif/RiscV`; `Asm*`, `Tramp`: dynamic and static trampolines and the entry points of sysv.S instruction by instruction, with interruptions and the call frame directives | single float registers (lp64f; the assembly entry points only as intended); promotion of variadic `float`; the compiler's own frame in `ffi_closure_inner` |
| `Verif/Arm` | 32-bit ARM, little endian, FFI_SYSV and FFI_VFP, flat memory: `vfp_type_p`, `layout_vfp_args`, `ffi_prep_cif_machdep`, `ffi_call_int`, `ffi_prep_args_*`, `ffi_prep_incoming_args_*`, `ffi_closure_inner_*` (src/arm/ffi.c), register loads and stores of sysv.S; `Asm*`: all of sysv.S instruction by instruction (ARM mode, ARMv5 and later), with interruptions, call frame directives and exception tables; `Tramp`: dynamic and static trampolines decoded from their bytes, `ffi_prep_closure_loc`, `ffi_prep_go_closure` | Windows (sysv_msvc_arm32.S), Thumb mode, ARMv4, `FFI_EXEC_TRAMPOLINE_TABLE`, instruction cache flushes, big endian, addresses do not wrap at 2^32 |
| `Verif/Alpha` | Alpha, little endian, 64-bit `double` and 128-bit `long double`, flat memory: `ffi_prep_cif_machdep`, `extend_basic_type`, `ffi_call_int`, `ffi_closure_osf_inner`, `ffi_prep_closure_loc`, `ffi_prep_go_closure` (src/alpha/ffi.c); `Asm*`: all of osf.S instruction by instruction with its jump tables, with and without BWX; `Tramp`: the trampoline decoded from memory | `long double` of 64 bits; `ldgp` gives the global pointer of libffi, called functions return with $26 unchanged (which `ldgp` after a call needs), the address of `ffi_closure_osf_inner` is loaded from its entry of the global offset table; NaN payloads: `lds`/`sts` are the bit maps of the Alpha handbook; instruction cache (`imb`) |
| `Verif/Or1k` | OpenRISC 1000, big endian, flat memory: `ffi_prep_args`, `ffi_call`, `ffi_closure_SYSV`, `ffi_prep_closure_loc`, `cif->flags` (src/or1k/ffi.c); `Asm`: ffi_call_SYSV (sysv.S) instruction by instruction; the trampoline decoded from memory, with delay slots | code of ffi_call_SYSV is not read from memory, and its delay slots, which hold `l.nop`, are skipped; `ffi_prep_args` is one step that keeps what the convention has it keep and may change what is below its stack pointer; local variables of `ffi_call` other than the copies are not in memory; addresses and sizes do not wrap around; the `asm` statement at the end of `ffi_closure_SYSV` (no clobbers declared) is taken to be the last that sets r11 and r12 |
| `Verif/M68k` | 68000 under Linux, big endian, flat memory: `ffi_prep_args`, `ffi_call`, `ffi_prep_cif_machdep`, `ffi_prep_incoming_args_SYSV`, `ffi_prep_closure_loc` (src/m68k/ffi.c); `Asm*`: ffi_call_SYSV, ffi_closure_SYSV, ffi_closure_struct_SYSV (sysv.S) instruction by instruction, four variants (`__HAVE_68881__` or not, 68020 instructions or not); the trampoline decoded from memory | `__MINT__`, position-independent, uClinux and ColdFire call sequences; unwind tables; the cache flush; instructions of sysv.S are not read from memory; `ffi_prep_args` and the inner function are one step that keeps what the convention has it keep; conversions to and from the 80-bit registers are a parameter (`Fpu`) with round trips assumed; `bytes` and addresses do not wrap |
| `Verif/S390` | S/390 and z/Architecture (31 and 64 bits), flat big-endian memory: `ffi_check_struct_type`, `ffi_prep_cif_machdep`, `ffi_call_int`, `ffi_closure_helper_SYSV`, `ffi_prep_closure_loc` (src/s390/ffi.c); `Asm*`: `ffi_call_SYSV`, `ffi_closure_SYSV`, `ffi_go_closure_SYSV` (src/s390/sysv.S) instruction by instruction, `Tramp`: trampolines decoded from their bytes | `long double` as `double`; unwind tables; addresses do not wrap; the compiler's own frame in `ffi_call_int` and the helper |
| `Verif/Ppc` | 64-bit Power, ELF V2, little endian, `long double` as double, IBM double-double or IEEE binary128: `discover_homogeneous_aggregate`, `ffi_prep_cif_linux64_core`, `ffi_prep_args64`, `ffi_closure_helper_LINUX64` (src/powerpc/ffi_linux64.c), `ffi_call_int` (src/powerpc/ffi.c); `Asm*`: `ffi_call_LINUX64` (src/powerpc/linux64.S), `ffi_closure_LINUX64` and `ffi_go_closure_linux64` (src/powerpc/linux64_closure.S) instruction by instruction; `Tramp`: `ffi_prep_closure_loc_linux64` and the static trampolines, decoded from the bytes | ELF V1, big endian, 32 bits; `double`/`float` conversion keeps signalling NaNs; addresses do not wrap; unwind tables; the compiler's own frames; stores of closures below the 288-byte protected zone before the frame is made |
| `Verif/I386` | 32-bit x86, all seven conventions, Linux, Windows and Darwin data models, flat memory: `ffi_prep_cif_machdep`, `ffi_call_int`, `ffi_closure_inner`, `ffi_raw_call` (src/x86/ffi.c), `ffi_call_i386`, closure, Go closure and raw closure entry points and return tables (src/x86/sysv.S); `Tramp*`: trampolines instruction by instruction | sysv_intel.S (MSVC), addresses do not wrap at 2^32, pushes of the PC thunk, conversions between x87 formats (`cvt`); loading and storing in one format is taken to keep all bits (false for signalling NaNs) |
| `Verif/Raw` | raw and Java raw API, flat memory (src/raw_api.c, src/java_raw_api.c) | |
| `Verif/Tramp` | static trampoline tables as a pointer heap (src/tramp.c) | platform calls (`ffi_tramp_arch`, mmap of the table) are an adversarial environment |
| `Verif/Closures/Mach*` | Mach trampoline tables (src/closures.c, FFI_EXEC_TRAMPOLINE_TABLE) | |
| `Verif/Closures/Temp*` | search for a temporary file, `dlmmap_locked` (src/closures.c:576-889) | answers of the system are a parameter (`World`); paths are strings, `unlink`/`umask` have no effect |
| `Verif/Closures/Seg*` | `dlmmap`, `dlmunmap`, dlmalloc's segments, code/data translation (src/closures.c:891-1057, src/dlmalloc.c) | dlmalloc's chunks: decisions that depend on them are parameters; assumptions on them are in `HReach` |
| `Verif/Closures/Heap*` | the two models `Seg` and `Dl` side by side: each call runs both, the answers of the double mapping go to the chunks and the decisions by chunks go to the segments; `ffi_closure_alloc`, `ffi_closure_free` (src/closures.c:985-1057) | 64-bit; static trampolines; the chunk words are those of `Dl`, the offset words those of `Seg` |
| `Verif/Dl` | dlmalloc's chunks: `dlmalloc`, `dlfree` and all they call (src/dlmalloc.c:2100-4364) on word memory: head and foot words of chunks, fenceposts, records of segments, bins, designated victim, top, trimming and release | links of free chunks (`fd`, `bk`, `child`, `parent`, `index`) are lists and trees, not words; the segment list is a list (the records are written, not read); the calls libffi does not make (`dlrealloc`, `dlcalloc`, mspaces, ...); 64-bit `size_t` |
| `Verif/Closures/SegRace` | single loads and stores of `segment_holding` against `add_segment` | sequential consistency; struct copy in one step |

Per layer: definitions, `*Lemmas` and invariants, and the property theorems in
`Verif/Props/*.lean`; specifications in `Verif/Spec/*.lean`.

Loops that need not terminate take fuel; running out of it is the separate
outcome `fuel`, and theorems say either "for enough fuel" (`Done`) or "never
anything but fuel".  `fault` (access outside memory) and `abort` are outcomes
too, so a theorem that gives `.ok` excludes them.

Concurrency: an API function that holds a lock from beginning to end is one step
(src/tramp.c, dlmalloc).  The code that runs outside the locks is modelled
separately (`SegRace`).

Mutation tests: `tools/mutate.py` copies the working tree, applies one edit to a
definition, rebuilds and records which theorems fail in `seeded/LOG.jsonl`.
Not finished: for OpenRISC (C105–C107) only three edits were tried, and for the 68000
(C108–C111) none.

## Violations found

Each is a theorem about the model, with the real code's lines at the definitions.

| property | violation | theorem |
|---|---|---|
| C05 | a rejected struct is accepted the second time | `C05_rejection_not_stable` |
| C06 | variadic float check is by address | `C06_float_copy_accepted` |
| C15 | struct { long double } returned wrongly on x86-64 | `C15_struct_long_double` |
| C19 | `avalue` is overwritten for structs above 16 bytes | `C19_overwritten` |
| C23 | callee sees the caller's copy of by-reference arguments (Win64) | `C23_shared` |
| C25, C26 | raw decode with `ffi_arg` wider than pointers | `C25_overrun`, `C26_x32` |
| C27 | raw closures with static trampolines read the code page | `C27_static` |
| C28 | pointer results on 64-bit big-endian with 32-bit slots | `C28_pointer_result` |
| C34 | segment lookup without lock: NULL dereference | `C34_race` |
| C35 | endless loop without mounts files; full file system stops the search; half-read mounts file | `C35_loops`, `C35_full`, `C35_half_read` |
| C36 | a failing second `munmap` leaves a segment without code | `C36_half` |
| C37, C49 | Mach tables: use after free, leak | `C37_use_after_free`, `C49_leak` |
| C38 | struct of empty structs with preset size: read past the member list | `C38_empty_members_fault` |
| C39, C51 | slot of a reference on the stack aligned like the object (Linux: 16, Apple: below 8) | `C39_reference_slot`, `C39_apple_reference_slot` |
| C39 | homogeneous aggregates in variadic `FFI_WIN64` calls | `C39_win64_variadic`, `C39_win64_spill` |
| C40 | references on the stack are not reserved for | `C40_overlap`, `C40_overlap_aligned` |
| C42, C43 | a struct of one real is passed in a float register that does not exist: slot 9 is `a0`, slot 19 is outside the block | `C42_lost`, `C43_overrun`, exact condition: `C43_slots` |
| C44 | `uint32_t` results on RV64 are stored sign-extended | `C44_uint32_sign_extended` |
| C52 | copies of by-reference arguments are aligned to XLEN only | `C52_misaligned` |
| C53 | `rvalue` is written for `void` functions | `C53_void_stores` |
| C45 | `FFI_REGISTER` closures exchange closure and return address; `FFI_PASCAL` with a struct result loses the first argument; small complex arguments abort; PCC with PIC overwrites the handler | `C45_register_swapped`, `C45_pascal_lost`, `C45_small_complex_aborts`, `C45_pcc_handler` |
| C46 | `narg_reg = 2` for 64-bit integers and structs, and padding, are subtracted from / included in the bytes to pop; Go closures of callee-pop conventions and pascal closures pop nothing | `C46_fastcall_wrong`, `C46_padding_wrong`, `C46_go_never_pops`, `C46_pascal_wrong`; exact condition: `C46_pop_exact_partial` |
| C47 | raw pointer advanced by four times the size; copy of whole 16-byte units; `& ~16` | `C47_fastcall_wrong`, `C47_overread`, `C47_below_block`, `C47_pascal_wrong` |
| C54 | reversed conventions: padding at the wrong end, hidden pointer overwritten | `C54_pascal_gap`, `C54_pascal_hidden_lost` (C55 too) |
| C56 | raw closures with static trampolines: the parameter block stays as it was, the trampoline's record is overwritten | `C56_raw_static` |
| C57 | raw closures: results in memory go to the closure's frame and over the return address; `FFI_THISCALL` leaves stack arguments and takes %ecx as first argument always | `C57_memory_result`, `C57_pop_thiscall`, `C57_thiscall_order` |
| C60 | RISC-V `ffi_call_asm` returns with another stack pointer than it was called with (relied upon by `ffi_call_int`, whose frame is addressed by fp) | `C60_call_sp` |
| C61 | AArch64 with pointer authentication: `ffi_go_closure_SYSV_V` does not sign the return address that its way out authenticates | `C61_go_unsigned` |
| C62 | AArch64 with Linux pointer authentication: `ffi_call_SYSV` moves the stack pointer above the argument context while signing; a signal handler then overwrites the arguments | `C62_call_clobbered`, `C62_call_unsafe` |
| C64 | x86-64: the unwind table has nothing for `ffi_closure_unix64_alt` and `ffi_closure_unix64_sse_alt` | `C64_alt` |
| C67, C69 | ARM: rule C.6 (close the core registers) is not applied once VFP arguments are on the stack; nine `double`, three `int`, `long long`, `int`: the last one is taken to be in r3 | `C67_core_left_open`, `C69_core_left_open` |
| C68 | ARM: no room for the hidden address of complex results in memory; `double _Complex f (double, int)` gets the frame pointer as its `int` | `C68_overflow` |
| C70 | ARM: temporary results are always misaligned by four for 8-byte types; complex results of two bytes are stored as four | `C70_temporary_misaligned`, `C70_complex_char` |
| C72, C73 | LoongArch: copies of by-reference arguments share `cif->bytes` with the stack arguments, without room for references on the stack or for alignment: the ninth struct of 24 bytes is overwritten by its own reference; copies below the stack pointer; as RISC-V for structs of one real | `C72_lost_copy`, `C73_below`, `C73_overlap`, `C73_above`, `C75_lost`; exact: `C73_slots`, `C72_room_exact` |
| C73 | LoongArch: temporary results are not aligned to 16 | `C73_result_misaligned` |
| C74 | LoongArch: integer members are stored as whole words, for `struct { float; int; }` beyond its end; `void` functions; `uint32_t` | `C74_beyond`, `C74_void_stores`, `C74_uint32_sign_extended` |
| C82 | S/390: `cif->bytes` has 32 bits; a struct of 4 GiB is copied to memory below the stack | `s390_bytes_wrap` |
| C83 | S/390: r6 is the fifth argument and call-saved; it is restored from the place that the handler gets for its fifth argument | `s390_closure_r6` |
| C86 | Power: `cif->bytes` has 32 bits; for a struct of 4 GiB the frame has 128 bytes | `ppc_bytes_wrap` |
| C86 | Power: a null `rvalue` with an integer result is stored to (not documented as allowed) | `ppc_null_C86` |
| C87 | Power: an IBM `long double` as the last named argument of a closure: the second half is taken from a general register (`i + 1 < nfixedargs`) | `ppc_closure_ibm_C87` |
| C87 | Power: two variable arguments that are homogeneous structs get the same address in a closure | `ppc_closure_alias_C87` |
| C87 | Power: a closure stores r3 to r10 in a parameter area that the caller need not have (e.g. structs of 8 and of 6 floats) | `ppc_closure_area_C87` |
| C91 | Win64: `ffi_closure_win64_alt` has no call frame information, and its unwind codes ignore the 16 bytes that the static trampoline pushed: the saved r10 is taken for the return address | `C91_alt` |
| C94 | LoongArch `ffi_call_asm` returns with another stack pointer than it was called with (as C60); for single float registers sysv.S does not assemble (it defines `FLD`/`FST` instead of `FLARG`/`FSARG`), the model has the expansion that is meant | `C94_call_sp` |
| C97, C98 | ARM: `ffi_call_SYSV` returns with the stack pointer at the end of its frame, and unwinds to it ("a bit of a lie", sysv.S:155) | `C97_call_return_partial`, `C98_call_*_partial` (exact value) |
| C98 | ARM: `ffi_closure_SYSV_alt` and `ffi_closure_VFP_alt` have no call frame information | `C98_alt_missing` |
| C100 | Alpha: `cif->bytes` has 32 bits: a 4 GiB struct argument gives an area of 0 bytes, and the copy runs over the stack above | `C100_bytes_wrap` |
| C100 | Alpha: `long double` arguments are passed by the address in `avalue`: the function gets the caller's object, not a copy | `C100_shared` |
| C104 | Alpha: the frame address of `ffi_call_osf` changes when $15 is restored: `frame + 32` before, the stack pointer `argp + 48`, which is lower, from there on | `C104_cfa_moves`; the `_partial` theorems have the exact value |
| C105 | OpenRISC: the size of the area does not count the word that is skipped when an 8-byte argument finds one register left: five words and a `double` overwrite the saved r20, and the caller of `ffi_call` gets the second word of the `double` in r20 | `C105_r20_lost` |
| C105 | OpenRISC: r11 is stored at `rvalue`, NULL or not, when the function has no result | `C105_void_written` |
| C105 | OpenRISC: `ffi_call` replaces the addresses of structs in its caller's `avalue` by those of copies in its own frame | `C105_avalue_changed` |
| C108 | 68000: `uint8` and `uint16` results are stored as the function has left them in d0, though the convention leaves the upper bits open and signed results are extended | `C108_unsigned` |
| C108 | 68000 without a floating-point unit: the third word of a `long double` result is in d2, which holds the flags by then: the number 16 is stored | `C108_ldouble` |
| C108 | 68000: with `rvalue` NULL room is made for structs of more than 8 bytes only; smaller ones that are returned in memory are written through a null pointer | `C108_null_struct` |
| C48 | 32-bit wrap of `bytes` | `C48_bytes_wrap` |
| C50 | hole in the file after a failed `mmap` | `C50_hole` |

## Plan per property

* C01 — `FFI_ALIGN`/`FFI_ALIGN_DOWN` as 64-bit word expressions; theorem: least
  multiple above / greatest below.  Proof by bit arithmetic.
* C02, C03, C04, C05, C07 — heap of descriptors (address → descriptor),
  `initialize_aggregate` as a fuelled recursive function with the C's in-place
  updates; the spec is the layout of the unfolded type tree.  Invariant: every
  descriptor is either unset or has its spec layout.  Induction on type rank.
  C05 is violated after failures (a failed nested initialisation leaves a
  non-zero size): negation with a witness plus `_partial` theorem for success.
* C06 — decision logic of `ffi_prep_cif_var`; the float check is by address,
  so a user copy of the float descriptor is accepted: witness + `_partial`.
* C08, C09 — `classify_argument` on type trees vs. a flat psABI spec;
  structural induction.
* C10, C11, C12, C13, C14, C18 — byte-level model of the register image and
  stack block of `ffi_call_int`, of the register loads in `ffi_call_unix64`, of
  the register spill and `ffi_closure_unix64_inner`; location spec from psABI;
  loop invariants over the argument list.
* C15, C16, C17 — the two jump tables as functions on register contents.
  C15 is violated for a struct consisting of one long double: witness +
  `_partial`.
* C19 — effect of `ffi_call` on the `avalue` array; violated for structs
  larger than 16 bytes: witness + `_partial`.
* C20, C21 — decode of the trampoline byte sequences; PC-relative arithmetic.
* C22–C24 — Win64 model as for SysV.  C23 violated for by-reference non-struct
  arguments: witness + `_partial`.
* C25, C26 — raw API, parametric in endianness, pointer and `ffi_arg` width;
  round trip when both widths agree, witness for ILP32 with 64-bit `ffi_arg`.
* C27 — closure dispatch with code/data aliases; violated with static
  trampolines: witness + `_partial`.
* C28 — Java raw API, as C25/C26.
* C29–C33 — pointer-level heap model of `tramp.c` with doubly linked lists;
  invariant by induction over histories with an adversarial allocator; each API
  call runs under the mutex, so a concurrent history is an interleaving of
  atomic operations.
* C34 — histories of closures over the segments of C36 (dlmalloc's chunks are
  specified, not modelled): serial calls proved; the unlocked lookup against
  `add_segment` as two threads: witness.
* C35 — state machine of the temp-file options with an adversarial
  environment; violated without `mntent`: witness + `_partial`.
* C36, C50 — address space as a map from byte addresses to storage; invariant of
  both views over histories of allocation, merge, trim and release.
* C37 — Mach tables as a pointer heap; violated (use after free): witness +
  `_partial`.
* C38 — AArch64: recursion over type trees against the flattening.
* C39, C40, C51 — the call as a function on flat memory and registers; placement
  given by a separate specification of AAPCS64 (stages C.1–C.16) and Apple's
  changes; invariant over the argument loop; violated: witnesses + `_partial`.
* C41 — return tables of sysv.S entry by entry against the standard's result
  registers.
* C42–C44, C52, C53 — RISC-V: call and closure as functions on flat memory; the
  placement (psABI integer and float conventions, by flattening) is a separate
  specification; invariant over the argument loops.  C42, C43, C44, C52, C53
  violated: witnesses + `_partial`; `C43_slots` is an equivalence.  Without float
  registers C42 and C43 hold for every signature (`_soft`).
* C45–C47, C54, C55 — i386: call and closure as functions on flat memory, with the
  conventions as a separate specification (placement, hidden pointer, bytes
  popped); one loop invariant for both directions of the argument loop; the
  assembly's return tables entry by entry.  C45, C46, C47, C54, C55 violated: witnesses
  + `_partial`; `C46_pop_exact_partial` is an equivalence.
* C56 — a machine that decodes and executes the bytes in memory; the bytes are those
  that `ffi_prep_closure_loc` stores and the assembler produces for the table and the
  `_alt` entry points.  Violated for raw closures with static trampolines.
* C57 — the two entry points as functions on flat memory against the same conventions
  as C54; violated: witnesses for all signatures concerned + `_partial`;
  `C57_pop_thiscall` is an equivalence.
* C58 — as C56, for AArch64; the words are decoded to instructions from memory.
* C59, C60 — the trampoline decoded from memory; the entry points as lists of
  instructions over abstract registers, executed; refinement to the memory and
  registers of the models of C52 and C53.  C60 violated for the stack pointer of
  `ffi_call_asm`: witness + `_partial`.
* C61 — `sysv.S` as lists of instructions over abstract registers, executed; pointer
  authentication is any pair of functions such that authentication inverts signing.
  Refinement to the memory and registers of the models of C51 and C39.  Violated for Go
  closures: witness for every state + `_partial`.
* C62 — the same instructions with interruptions as a relation (`Runs`): between any two
  instructions the stack below the stack pointer may change.  A condition on the
  uninterrupted execution (`Safe`: what is read has not been below the stack pointer
  since it was written) is proved sufficient by induction over the interrupted one.
* C63, C64, C65 — `unix64.S` as a list of items; `assemble` computes offsets and labels as
  the macro `E`, `.org` and `.balign` do; `exec` executes one instruction and has no result
  when it faults (misaligned `movdqa`, x87 overflow, missing `endbr64`, wrong shadow
  stack); `Reach` is execution with interruptions that spare the red zone.  `Safe` tracks
  which memory is known (what no handler can have changed since it was written) along the
  uninterrupted execution; by induction over `Reach`, every interrupted execution agrees
  with it there, never faults and leaves the code.  `cfa` interprets the bytes of the
  unwind tables.  The resulting states are compared with `enter`, `spill`, `storeRet` and
  `loadRet` of C10-C18.
* C66-C70 — 32-bit ARM: the specification (`Spec/Arm.lean`) places arguments by stage C of
  AAPCS32 6.5; a parameter relaxes rule C.6.  `place_vfp_arg` with its bit mask is proved
  equal to "lowest-numbered free run" (invariant `Rel`), the loops of calls and closures
  to the addresses of the places (`ORel`, `IRel`, `SRel`), the size of the block by
  induction over the arguments (`Enough`).  Registers are what is loaded from the block.
* C71 — `Unfolds` follows the descriptors of a heap to a type tree; declared types (scalars
  and complex types of src/types.c, structs with size zero) are proved to unfold to
  well-formed trees once laid out (induction over the declaration, layouts are unique).
  The machine-dependent stages are plugged in on trees, which establishes for each target
  the hypothesis "prepared" of C08-C18 and C38-C70.  The generic stage computes with 64-bit
  `size_t` also for the 32-bit targets (same results for types below 4 GiB).
* C72-C75 — LoongArch64: as RISC-V, with the same placement; the copies grow downwards
  from the end of the area in which the stack arguments grow upwards: the invariant
  carries the contents above the current end (`Fut`, `Keep`), `Room` says that the two
  never meet.  `Room` is then decided from the signature (`room_of`, `room_needs`,
  `needs_small`).  All four violated: witnesses + `_partial`.
* C76-C78 — dlmalloc: `Inv` relates the heap to a map of chunks (address, size, use): head
  and foot words, no two free neighbours, segments tiled, bins and bitmaps exact, the top in
  the first segment.  Every function preserves it and hands out a chunk (`Got`) or takes one
  back (`Freed`) while all other live chunks stay with their words; induction over the
  histories (`Hist`).
* C79 — the chunks of a segment are read from the head words (`Row`); by induction over what
  is left of the segment they are those of the map, which ends only at the top and at the
  segment's own record.
* C80 — every tree bin is a trie over the size bits below those of its index (`T.Trie`), kept by
  insertion, removal and leaf promotion; `T.search`/`T.least` with the leftmost set bit of the
  bin map find the least size; exact bins and `dv` by cases (`Inv.fit`).  The system's answers
  do not occur in any of these branches (`dlmalloc_any`).
* C81 — `K` (Verif/Closures/HeapLink.lean) holds in all histories: the chunk history is one of
  `Dl.Hist`, the segment history one of `HReach`, their segments have equal ranges and the mapped
  memory is the same.  What `HReach` assumes of the chunks is proved from C76 and C78 (a block lies in
  one segment and off what is unmapped); what `Dl.Hist` assumes of the system is proved from C34.
* C82-C85 — S/390: `Sim` ties the counters of the C loops to positions of the ABI; `callLoop_ok`
  carries what later arguments cannot overwrite (`Fut`, `Keep`); the assembly is run from state to state
  (`Runs`) with symbolic registers; `Conforms` is what the ABI demands of callees.  C85 composes the others.
* C86 — Power: `Mid` ties the pointers of `ffi_prep_args64` to positions of the ABI, `Geo` says that the parts of the frame
  do not overlap, `Later` what later arguments may overwrite; `RegsEq` carries the image in memory over to the registers
  that the assembly loads.
* C87-C89 — Power: `clos_ok` says what the frame of the closure holds, `View` what the helper finds there; `closureView_ok`
  follows the helper's three pointers through the arguments (in step with the positions of the ABI); `Res` is what a handler
  may leave, `gives_returned` follows the jump table.  C89 composes C86, C88 and C87; it assumes that `ffi_prep_args64` leaves the
  closure and the cif alone, and that floating and vector registers hold 64 and 128 bits.
* C90-C92 — `win64.S` as C63-C65; call frame directives are kept as items between the instructions and interpreted
  (`dwarf`), likewise Windows' unwind codes with its recognition of epilogues (`sehRow`).  The states are compared with the models
  of C22-C24.  C91 is violated in `ffi_closure_win64_alt`: witness for every state + `_partial`.
* C93, C94 — as C59 and C60, for LoongArch, with the static trampoline table (65536 bytes, any slot).  C94 violated for the
  stack pointer: witness for every state + `_partial`.
* C95, C96 — `Visits`: execution of a list of instructions with arbitrary changes of the memory between `lo` and the stack pointer
  before each; `Good` says that no instruction loads from there and that the row at each instruction unwinds; both are preserved by
  every instruction of the lists.  Directives are items (`Item`) in the same lists, `rows` interprets them.
* C97, C98 — sysv.S of 32-bit ARM as C63-C65: `Safe` certificates per entry point, compared with `enter`, `finishAsm`, `asmEntry` and
  `closureExit` of C66-C70.  Exceptions of C98: the stack pointer of `ffi_call_SYSV`, the `_alt` entry points (witness + `_partial`).
* C99 — execution through stages (`stages`) that interruptions preserve; composed with C97 for the arguments of the inner function.
* C100 — Alpha: specification `Spec/Alpha.lean` (slots, `Passed`, `Returned`); `callEntry` by induction over the arguments, osf.S by
  symbolic execution of blocks; composed.  32-bit `bytes` and sharing of by-reference arguments: witness + `_partial`.  Results of
  `UINT32` in an `ffi_arg` are sign-extended (the calling standard's canonical form); a complex integer result is stored as a whole
  8-byte word, which the manual allows (results are no smaller than a register).  `ffi_call_osf` returns with the stack pointer
  at the end of the register area; `ffi_call_int` restores it from its frame pointer ($15), which the theorem gives back.
* C101 — closure entry points as C100; `ffi_closure_osf_inner` by induction over the arguments against `AllPassed`.
* C102 — `tramp_ok` decodes the words; round trips compose C100, `C102_trampoline` and C101.
* C103 — `Safe` certificates (`Alpha/AsmSafe.lean`, `AsmIrq.lean`): no instruction reads what interruptions may have changed; ends in C100, C101.
  Partial for calls as C100 (areas below 4 GiB).
* C104 — the certificates carry `Unw` for the row of each instruction.  Frame address of `ffi_call_osf`: witness + `_partial`.
* C105 — OpenRISC: specification `Spec/Or1k.lean` (`AllPassed`, `Returned`, `Got`); `prepLoop_ok` by induction with the relation `Rel` between
  `count`/`nfixedargs` and the convention's state; ffi_call_SYSV in three segments (`Or1k/Asm.lean`).  Partial: `Whole` for functions that
  are not variadic, results other than `void` (three witnesses).
* C106 — induction over the arguments with `CRel`; small integers by `small` (a word and its low bytes).
* C107 — `tramp_runs`: six decoded steps.
* C108 — 68000: specification `Spec/M68k.lean` (`AllPassed`, `Returned`, `Got`, `inMem`); `prepArgs_ok` by induction over the arguments; ffi_call_SYSV in
  segments up to `ffi_prep_args`, up to the function and from there to the return (`M68k/Asm.lean`, `AsmRet.lean`).  Partial: results other than unsigned
  integers that are not extended and `long double` without a floating-point unit (two witnesses); `rvalue` NULL is a third.
* C109 — `closureView_ok` by induction; the chain of bit tests by `run_case` for each bit (`M68k/AsmClosure.lean`), values by `loaded_returned`.
* C110 — `tramp_ok`: two decoded steps; the choice of the target by `flags_bit`.
* C111 — composition of C108, C110 and C109 (`Props/M68kTrip.lean`); since the closure extends unsigned results, only `long double` without a
  floating-point unit is missing.
* C48 — arithmetic of `bytes` in `ffi_prep_cif_core`; 32-bit wrap-around
  witness + `_partial`.

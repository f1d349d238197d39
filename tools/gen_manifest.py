#!/usr/bin/env python3
"""Writes MANIFEST.json and lean/Verif/Axioms.lean from the table below."""
import json, os
ROOT = os.path.dirname(os.path.dirname(os.path.abspath(__file__)))
P = "Verif.Props."
C = []
def claim(prop, status, thms, note, mod):
    C.append((prop, status, [P + t for t in thms], note, mod))

CORE = "Verif.Props.Core"
claim("C01", "proved", ["C01_align_up", "C01_align_down"], "FFI_ALIGN / FFI_ALIGN_DOWN as 64-bit word expressions.", CORE)
claim("C02", "proved", ["C02_layout", "C02_history"], "Heap with shared, nested descriptors; any history of successful calls.", CORE)
claim("C03", "proved", ["C03_offsets"], "After any history; struct declared with size 0.", CORE)
claim("C04", "proved", ["C04_bad_abi", "C04_status"], "Includes termination of preparation on valid heaps.", CORE)
claim("C05", "partial", ["C05_repeat_partial", "C05_rejection_not_stable"], "False for rejected signatures (witness); proved for accepted ones.", CORE)
claim("C06", "partial", ["C06_variadic_partial", "C06_fixed_args_free", "C06_float_copy_accepted"], "Float check is by address; witness for a copied float descriptor.", CORE)
claim("C07", "proved", ["C07_frame", "C07_frame_var"], "Unconditional: any heap, any outcome.", CORE)
claim("C48", "partial", ["C48_bytes_partial", "C48_reserved_partial", "C48_bytes_wrap"], "Proved below 4 GiB; 32-bit wrap witness.", CORE)

X = "Verif.Props.X64"
claim("C08", "proved", ["C08_classification"], "Every well-formed LP64 type (scalars, complex, nested structs).", X)
claim("C09", "proved", ["C09_classes_bounded", "C09_examine_total"], "A write past the class array and abort() are explicit failures of the model.", X)
claim("C10", "proved", ["C10_call_safe"], "Signatures with less than 4 GiB of stack arguments; any out-of-bounds access is a failure of the model.", X)
claim("C11", "proved", ["C11_placement"], "Registers and stack offsets of the psABI, sign/zero extension, static chain.", X)
claim("C12", "proved", ["C12_closure_args"], "Any register and stack contents left by a psABI caller.", X)
claim("C13", "proved", ["C13_call_closure"], "Composition of ffi_call and closure entry; all non-padding bytes.", X)
claim("C14", "proved", ["C14_vector_count", "C11_placement"], "%al = number of vector registers used, at most 8.", X)
claim("C15", "partial", ["C15_fetch_partial", "C15_leave_partial", "C15_struct_long_double"], "False for struct { long double } (witness); proved for every other type.", X)
claim("C16", "proved", ["C16_result_bytes", "C16_null"], "All return types and register contents.", X)
claim("C17", "proved", ["C17_result_round_trip"], "All types returned in registers.", X)
claim("C18", "proved", ["C18_memory_result"], "ffi_call and closure side, including rvalue == NULL.", X)
claim("C19", "partial", ["C19_avalue_partial", "C19_overwritten"], "False whenever a struct larger than 16 bytes is passed (proved for every such signature).", X)
claim("C20", "proved", ["C20_dynamic_trampoline"], "Instruction-level execution of the trampoline bytes.", X)
claim("C21", "proved", ["C21_static_trampoline", "C21_blocks_disjoint"], "Instruction-level execution of every slot, CET and non-CET.", X)

W = "Verif.Props.Win64"
claim("C22", "proved", ["C22_call", "C22_null_result", "C22_closure", "C22_round_trip"], "Flat memory; by-value and by-reference arguments; both ABI variants.", W)
claim("C23", "partial", ["C23_isolated_partial", "C23_shared"], "Proved when all by-reference arguments are structs above 8 bytes; false for every other by-reference type (proved for all such signatures).", W)
claim("C24", "proved", ["C24_result", "C24_null", "C24_closure", "C24_round_trip"], "All return types; 80-bit long double with FFI_WIN64 aborts.", W)

R = "Verif.Props.Raw"
claim("C25", "partial", ["C25_encode", "C25_decode_partial", "C25_overrun"], "Encoding proved for all configurations; decoding false on little-endian targets with ffi_arg wider than pointers (proved for every such signature).", R)
claim("C26", "partial", ["C26_round_trip_partial", "C26_x32"], "As C25; proved for all configurations except x32-like ones, and there for arguments up to pointer size.", R)
claim("C27", "partial", ["C27_raw_partial", "C27_java_partial", "C27_static"], "Proved when the code address aliases the closure (dynamic trampolines); false with static trampolines, where function and data are read from the trampoline code page.", R)
claim("C28", "partial", ["C28_arguments", "C28_size_total", "C28_narrow_result", "C28_other_result_partial", "C28_pointer_result", "C28_long_double_overrun"], "Arguments and all results proved except pointer results with 32-bit Java slots on 64-bit big-endian (false, witness).", R)

T = "Verif.Props.Tramp"
claim("C29", "proved", ["C29_exclusive", "C29_fresh", "C29_stable"], "Pointer-level model of the tables and both lists; every history, platform behaviour and change by the rest of the process. Each API call is one step because it holds the lock from beginning to end.", T)
claim("C30", "proved", ["C30_no_fault", "C30_mapped", "C30_others"], "Access to a freed or unallocated block is a fault of the model.", T)
claim("C31", "proved", ["C31_bound", "C31_no_leak"], "", T)
claim("C32", "proved", ["C32_failure", "C32_free_slot"], "A failed initialisation is permanent, which the statement lists as a reason.", T)
claim("C33", "proved", ["C33_parms", "C33_frame", "C33_jump"], "C33_jump combines the history with instruction-level execution of the x86-64 trampoline.", T)

M = "Verif.Props.Mach"
claim("C37", "partial", ["C37_exclusive", "C37_alloc", "C37_calloc", "C37_free_partial", "C37_one_table", "C37_use_after_free"], "No trampoline is handed out twice (all histories). Use after free: false from three tables on (witness for every page size with at least two trampolines), proved for processes whose closures fit into one table and for states without a link to a freed table.", M)
claim("C49", "partial", ["C49_one_table_partial", "C49_leak"], "False: any number of tables can stay allocated with no closure live; proved for processes whose closures fit into one table.", M)

D = "Verif.Props.Temp"
claim("C35", "partial", ["C35_search", "C35_map_partial", "C35_loops", "C35_full", "C35_half_read"], "Every search ends and tries every location (all answers of the system, all reachable states). dlmmap_locked ends with mounts files; without them it can loop forever (proved), a full file system stops the search, and a mounts file left half read by tramp.c is continued.", D)

S = "Verif.Props.Seg"
claim("C34", "partial", ["C34_serial_partial", "C34_race"], "Calls that do not overlap in time: proved for all histories of segments, with dlmalloc's chunks as assumption. Interleaved: false, the unlocked segment lookup can miss a segment while another thread adds one (proved for every such state).", S)
claim("C36", "partial", ["C36_views_partial", "C36_storage_partial", "C36_no_abort_partial", "C36_half"], "Every history of allocation, merging, trimming and release without a munmap that fails half way; false with one (witness).", S)
claim("C50", "partial", ["C50_backed_partial", "C50_hole"], "Proved while the file was never truncated, failed writes included; false after a failed mmap (witness).", S)

A = "Verif.Props.AArch64"
claim("C38", "proved", ["C38_hfa", "C38_empty_members_fault"], "For all well-formed types; a preset-size struct of empty structs (not well-formed) makes is_vfp_type run past the member list.", A)
claim("C39", "partial", ["C39_closure_partial", "C39_call_closure_partial", "C39_reference_slot", "C39_apple_reference_slot", "C39_win64_variadic", "C39_win64_spill"], "Proved for every caller that follows the standard and for every ffi_call whose reserved area suffices and whose references on the stack get a pointer's slot; false for references to 16-byte aligned objects, references at odd offsets on Apple, and homogeneous aggregates in variadic FFI_WIN64 calls (witnesses).", A)
claim("C40", "partial", ["C40_area_partial", "C40_reserved_values", "C40_reserved_references_partial", "C40_overlap", "C40_overlap_aligned"], "Every signature without arguments passed by reference; with them if alignment is at most 8 and references on the stack are paid for by register arguments; false otherwise (witnesses).", A)
claim("C41", "proved", ["C41_call", "C41_null", "C41_closure", "C41_memory", "C41_roundtrip"], "", A)
claim("C51", "partial", ["C51_args_partial", "C51_args_values"], "All signatures without arguments passed by reference (C51_args_values); with references under the conditions of C40 and for slots the code aligns like a pointer.", A)

R5 = "Verif.Props.RiscV"
claim("C42", "partial", ["C42_arguments_partial", "C42_arguments_soft", "C42_lost"], "All signatures on targets without float argument registers; otherwise all in which no named struct of one real is met with all eight float registers in use. C42_lost is a counterexample beyond that.", R5)
claim("C43", "partial", ["C43_slots", "C43_stores_partial", "C43_stores_soft", "C43_overrun"], "C43_slots is the exact condition (equivalence) under which no float slot beyond the eighth is written; under it all stores are in the block. C43_overrun is a counterexample.", R5)
claim("C44", "partial", ["C44_widened_partial", "C44_widened_rv32", "C44_roundtrip_partial", "C44_uint32_sign_extended"], "All types on 32-bit targets; on 64-bit targets all but uint32_t, for which the property is false (C44_uint32_sign_extended).", R5)
claim("C52", "partial", ["C52_args_partial", "C52_args_soft", "C52_misaligned"], "Restriction as for C42; references are shown aligned if no argument type is aligned beyond XLEN, false otherwise (C52_misaligned).", R5)
claim("C53", "partial", ["C53_call", "C53_memory", "C53_closure", "C53_roundtrip", "C53_void_stores"], "All object types; false for void functions called with an rvalue (C53_void_stores).", R5)

X = "Verif.Props.I386"
claim("C45", "partial", ["C45_roundtrip_partial", "C45_closure_partial", "C45_register_swapped", "C45_register_lost", "C45_pascal_lost", "C45_small_complex_aborts", "C45_pcc_handler"], "All signatures for sysv, thiscall, fastcall, stdcall, ms_cdecl; pascal if the result is not in memory. False for every FFI_REGISTER closure, for pascal with a result in memory, for complex types of at most four bytes, and with PCC and PIC without hidden visibility.", X)
claim("C46", "partial", ["C46_pop_exact_partial", "C46_stdcall_win32", "C46_go_never_pops", "C46_fastcall_wrong", "C46_padding_wrong", "C46_pascal_wrong"], "C46_pop_exact_partial is the exact condition (equivalence) if no argument needs padding; false outside it, with padding, for pascal, and for thiscall and fastcall Go closures (all of them).", X)
claim("C47", "partial", ["C47_raw_partial", "C47_fastcall_wrong", "C47_overread", "C47_below_block", "C47_pascal_wrong"], "Proved for the conventions without registers and arguments aligned to at most four bytes; false with registers, for pascal, and as regards reading only the raw buffer.", X)
claim("C54", "partial", ["C54_placement_partial", "C54_reversed_partial", "C54_pascal_gap", "C54_pascal_hidden_lost"], "All signatures for the five conventions that push from right to left; for pascal and register exact up to the padding at the top of the block, and false because of it and with a result in memory.", X)
claim("C55", "partial", ["C55_call", "C55_other_partial", "C55_closure_partial", "C55_roundtrip_partial", "C45_register_swapped", "C54_pascal_hidden_lost"], "All result types and both sides for the five conventions that push from right to left; for pascal and register the call side for results not in memory. False for register closures (they return to their own address) and for results in memory under pascal and register.", X)
XT = "Verif.Props.I386Tramp"
claim("C56", "partial", ["C56_dynamic", "C56_entry", "C56_static", "C56_blocks_disjoint", "C56_raw", "C56_raw_static"], "Proved by execution of the instructions for every convention and both kinds of trampolines, and for raw closures without static trampolines; false for every raw closure with static trampolines (C56_raw_static), whose parameter block is never filled.", XT)
XR = "Verif.Props.I386RawClosure"
claim("C57", "partial", ["C57_arguments_partial", "C57_result_partial", "C57_pop_sysv", "C57_pop_thiscall", "C57_thiscall_order", "C57_memory_result"], "Arguments and results proved for all signatures with the result not in memory and, under FFI_THISCALL, a first argument in the register. False for every result in memory and every other first argument; under FFI_THISCALL the stack pointer is right exactly if no argument is on the stack (equivalence).", XR)
claim("C58", "proved", ["C58_dynamic", "C58_dynamic_footprint", "C58_static", "C58_blocks_disjoint", "C58_mach"], "Proved by execution of the instructions decoded from memory, for dynamic trampolines, the static table and the Mach page.", "Verif.Props.AArch64Tramp")
RA = "Verif.Props.RiscVAsm"
claim("C59", "proved", ["C59_dynamic", "C59_accepts", "C59_go"], "Trampoline decoded from memory and executed; the entry points instruction by instruction, on all six ABIs.", RA)
claim("C60", "partial", ["C60_closure", "C60_closure_refines", "C60_call_enter", "C60_call_partial", "C60_call_sp", "C60_call_refines"], "All registers for the closure entry points; all but the stack pointer for ffi_call_asm, which never restores it if the block has anything below the register image (C60_call_sp). The two refinement theorems tie the instructions to the models of C52 and C53.", RA)
claim("C61", "partial", ["C61_call_enter", "C61_call", "C61_call_refines", "C61_closure_enter", "C61_closure", "C61_closure_refines", "C61_go_enter", "C61_go_partial", "C61_go_unsigned"], "Calls and closures in all three modes of pointer authentication; Go closures except those with vector arguments under Linux pointer authentication, which never return (C61_go_unsigned). The two refinement theorems tie the instructions to the models of C51 and C39.", "Verif.Props.AArch64Asm")
claim("C62", "partial", ["C62_call_enter_partial", "C62_call_exit", "C62_closure_enter", "C62_go_enter", "C62_closure_exit", "C62_call_clobbered", "C62_call_unsafe"], "Everything except the entry of ffi_call_SYSV under Linux pointer authentication, where the stack pointer is above the arguments while the return address is signed: there a handler determines the argument registers (C62_call_clobbered), for every call (C62_call_unsafe).", "Verif.Props.AArch64Signal")
XA = "Verif.Props.X64Asm"
claim("C63", "proved", ["C63_call_enter", "C63_call_return", "C63_closure_enter", "C63_closure_return", "C63_alt_enter"], "By execution of every instruction of unix64.S with interruptions; both halves of calls and closures, refinement to enter, spill, storeRet and loadRet.", XA)
claim("C64", "partial", ["C64_call_enter_partial", "C64_call_return_partial", "C64_call_inside_partial", "C64_closure_enter_partial", "C64_closure_return_partial", "C64_closure_inside_partial", "C64_alt"], "Everywhere but in ffi_closure_unix64_alt and ffi_closure_unix64_sse_alt, which the table leaves out (C64_alt). The tables are interpreted byte by byte; every instruction of every interrupted execution and the call sites.", XA)
claim("C65", "proved", ["C65_call", "C65_call_return", "C65_closure", "C65_closure_return", "C63_alt_enter", "C65_entries"], "exec has no result for an indirect jump to anything but endbr64 or a return that differs from the shadow stack; progress is proved for every reachable state.", XA)
AR = "Verif.Props.Arm"
claim("C66", "proved", ["C66_vfp_type_p", "C66_layout", "C66_lowest"], "By induction over types and over the list of arguments; layout_vfp_args equals the places of the specification.", AR)
claim("C67", "partial", ["C67_arguments_partial", "C67_conforms_partial", "C67_soft", "C67_core_left_open", "arm_conforms_soft", "arm_conforms_regs", "arm_conforms_words"], "Arguments are placed by AAPCS32 with rule C.6 relaxed; the places are those of the standard for FFI_SYSV and variadic functions, if every VFP candidate gets registers, and if every other argument is one word. Violated otherwise: C67_core_left_open. Functions with complex results in memory and 8-byte-aligned arguments excluded (C68_overflow).", AR)
claim("C68", "partial", ["C68_stores_partial", "C68_overflow"], "Except for complex results in memory with an argument aligned to 8 bytes, where one word is missing: C68_overflow.", AR)
claim("C69", "partial", ["C69_arguments_partial", "C69_conforms_partial", "C69_round_trip", "C69_core_left_open"], "Relaxed rule C.6 as in C67 (C69_core_left_open); calls through ffi_call always find their arguments (C69_round_trip).", AR)
claim("C70", "partial", ["C70_call_partial", "C70_call_null", "C70_closure", "C70_temporary_misaligned", "C70_complex_char"], "Violated: the temporary area is never aligned to 8 bytes (C70_temporary_misaligned, all calls); four bytes are stored for complex types of two bytes (C70_complex_char).", AR)
claim("C71", "proved", ["C71_machdep", "C71_layout_iff", "C71_success", "C71_x64", "C71_aarch64", "C71_arm", "C71_x86", "C71_riscv"], "Declared types unfold to well-formed trees after layout; the stages of x86-64 (SysV and Windows), AArch64, ARM, 32-bit x86 and RISC-V are plugged in.", "Verif.Props.Tree")
LA = "Verif.Props.LoongArch"
claim("C72", "partial", ["C72_args_partial", "C72_args_soft", "C72_room_direct", "C72_room_registers", "C72_room_exact", "C72_lost_copy"], "Under two conditions: no struct of one real beyond the eighth floating-point register (exact: C73_slots), and room for the copies (sufficient: C72_room_direct, C72_room_registers; necessary, and for types of sizes that are multiples of eight exact: C72_room_exact). False otherwise: C72_lost_copy.", LA)
claim("C73", "partial", ["C73_slots", "C73_stores_partial", "C73_below", "C73_overlap", "C73_above", "C73_result_misaligned"], "Under the conditions of C72; false otherwise (copies below the stack pointer: C73_below; overlapping: C73_overlap; above the block: C73_above); unwanted results may be misaligned (C73_result_misaligned).", LA)
claim("C74", "partial", ["C74_call_partial", "C74_tail", "C74_memory", "C74_widened_partial", "C74_closure", "C74_roundtrip", "C74_beyond", "C74_void_stores", "C74_uint32_sign_extended"], "Members of all results; false for the bytes behind struct { float; int } (C74_beyond), for void functions with an rvalue (C74_void_stores) and for the extension of uint32_t (C74_uint32_sign_extended).", LA)
claim("C75", "partial", ["C75_arguments_partial", "C75_standard_partial", "C75_lost"], "Under the conditions of C72 for calls; for any caller only the first condition. False otherwise (C75_lost).", LA)
DL = "Verif.Props.Dl"
claim("C76", "proved", ["dl_malloc", "dl_free", "dl_refused"], "Over the chunk-level model (links of free chunks are lists and trees).", DL)
claim("C77", "proved", ["dl_blocks"], "As C76.", DL)
claim("C78", "proved", ["dl_unmapped", "dl_free"], "As C76.", DL)
claim("C79", "proved", ["dl_tiled", "dl_all_freed"], "As C76; rows of chunks are read from the head words in memory.", "Verif.Props.DlTile")
claim("C80", "proved", ["dl_fit", "dl_top", "dl_system_last", "dl_refused_nofit"], "As C76; the trees are shown to be tries over the size bits (with the shift amounts of the macros), the searches to find the least size.", "Verif.Props.DlFit")
claim("C81", "proved", ["heap_chunks", "heap_closures", "heap_alloc", "heap_free"], "For histories without a munmap of data that fails after that of its code. 64-bit; the chunk model and the segment model run side by side, each decision that one model leaves open is answered by the other.", "Verif.Props.Heap")
SZ = "Verif.Props.S390"
claim("C82", "partial", ["s390_call_partial", "s390_bytes_wrap"], "For argument areas below 4 GiB: cif->bytes has 32 bits, a struct of 4 GiB is copied far below the stack (s390_bytes_wrap).", SZ)
claim("C83", "partial", ["s390_closure_partial", "s390_go_closure_partial", "s390_closure_r6"], "For handlers that do not assign to their fifth word: call-saved r6 is restored from there (s390_closure_r6).", SZ)
claim("C84", "proved", ["s390_trampoline", "s390_static_trampoline"], "Decoded from the bytes.", SZ)
claim("C85", "partial", ["s390_round_trip_partial"], "Under the conditions of C82 and C83.", SZ)
PP = "Verif.Props.Ppc"
claim("C86", "partial", ["ppc_call_partial", "ppc_bytes_wrap", "ppc_null_C86"], "For frames below 4 GiB: cif->bytes has 32 bits (ppc_bytes_wrap); a null rvalue only for structs and void (ppc_null_C86).", PP)
PK = "Verif.Props.PpcClosure"
claim("C87", "partial", ["ppc_closure_partial", "ppc_go_closure_partial", "ppc_closure_ibm_C87", "ppc_closure_alias_C87", "ppc_closure_area_C87"], "Under three conditions, false otherwise: the last named argument is not an IBM long double in registers (ppc_closure_ibm_C87), at most one variable argument is a homogeneous struct (ppc_closure_alias_C87), the caller has a parameter area where ffi_prep_cif expects it (ppc_closure_area_C87).", PK)
claim("C88", "proved", ["ppc_trampoline", "ppc_static_trampoline"], "Decoded from the bytes.", PK)
claim("C89", "partial", ["ppc_round_trip_partial"], "Under the conditions of C86 and the first two of C87.", PK)
WA = "Verif.Props.Win64Asm"
claim("C90", "proved", ["C90_call_enter", "C90_call_return", "C90_call_result", "C90_closure_enter", "C90_alt_enter", "C90_trampoline", "C90_closure_return", "C90_closure_result", "C90_round_trip"], "By execution of every instruction of win64.S with interruptions; refinement to the models of C22-C24.", WA)
claim("C91", "partial", ["C91_call_enter_partial", "C91_call_return_partial", "C91_call_inside_partial", "C91_closure_enter_partial", "C91_closure_return_partial", "C91_closure_inside_partial", "C91_alt"], "Everywhere but in ffi_closure_win64_alt, where it is false for every state: C91_alt.", WA)
claim("C92", "proved", ["C92_call", "C92_call_return", "C92_closure", "C92_closure_return", "C90_alt_enter", "C92_entries"], "exec has no result for an instruction that faults; progress is proved for every reachable state.", WA)
LX = "Verif.Props.LoongArchAsm"
claim("C93", "proved", ["C93_dynamic", "C93_static", "C93_accepts", "C93_go"], "Decoded from the bytes in memory. lp64s, lp64f (intended expansion, see DESIGN) and lp64d.", LX)
claim("C94", "partial", ["C94_closure", "C94_closure_refines", "C94_call_enter", "C94_call_partial", "C94_call_sp", "C94_call_refines"], "All registers for the closure entry points; all but the stack pointer for ffi_call_asm, which never restores it if the block has anything below the register image (C94_call_sp). The refinement theorems tie the instructions to the models of C72-C75.", LX)
claim("C95", "proved", ["C95_call_enter", "C95_call_return", "C95_closure_enter", "C95_closure_return", "C95_la_call_enter", "C95_la_call_return", "C95_la_closure_enter", "C95_la_closure_return"], "Interruptions as a relation (Visits): before every instruction the memory from lo to the stack pointer may change.", "Verif.Props.RiscVInt")
claim("C96", "proved", ["C96_call_in", "C96_call_inside", "C96_call_out", "C96_closure_in", "C96_closure_inside", "C96_closure_out", "C96_code", "C96_la_call_in", "C96_la_call_inside", "C96_la_call_out", "C96_la_closure_in", "C96_la_closure_inside", "C96_la_closure_out", "C96_la_code"], "The directives are kept as items between the instructions and interpreted.", "Verif.Props.LoongArchInt")
claim("C97", "partial", ["C97_call_enter", "C97_call_return_partial", "C97_closure_enter", "C97_closure_return"], "Compared with the model of C66-C70. Missing: the stack pointer after ffi_call_SYSV, which is the end of its frame (exact value proved).", "Verif.Props.ArmAsm")
claim("C98", "partial", ["C98_call_enter_partial", "C98_call_return_partial", "C98_call_inside_partial", "C98_call_ehabi_partial", "C98_closure_enter_partial", "C98_closure_return", "C98_closure_inside", "C98_alt_missing"], "Violated at the entry points for static trampolines, which have no call frame information (C98_alt_missing), and for the stack pointer of ffi_call_SYSV.", "Verif.Props.ArmAsm")
claim("C99", "proved", ["C99_abi", "C99_dynamic", "C99_dynamic_inner", "C99_go", "C99_static", "C99_static_inner"], "Instructions decoded from the bytes in memory; ARM mode.", "Verif.Props.ArmTramp")
claim("C100", "partial", ["C100_call_partial", "C100_bytes_wrap", "C100_shared"], "Violated for argument areas of 4 GiB and more (C100_bytes_wrap) and for the independence of by-reference arguments (C100_shared); C100_call_partial assumes only that the area is below 4 GiB.", "Verif.Props.Alpha")
claim("C101", "proved", ["C101_closure", "C101_go_closure"], "Both entry points, both instruction set variants.", "Verif.Props.Alpha")
claim("C102", "partial", ["C102_trampoline", "C102_round_trip_partial", "C102_go_round_trip_partial"], "Round trips inherit the 4 GiB bound of C100.", "Verif.Props.Alpha")
claim("C103", "partial", ["C103_call_enter_partial", "C103_call_return_partial", "C103_closure_enter", "C103_go_enter", "C103_closure_return"], "Calls inherit the 4 GiB bound of C100; closures are unconditional.", "Verif.Props.AlphaAsm")
claim("C104", "partial", ["C104_call_enter_partial", "C104_call_inside_partial", "C104_call_return_partial", "C104_closure_enter", "C104_closure_inside", "C104_closure_return", "C104_cfa_moves"], "Violated for the frame address of ffi_call_osf, which moves (C104_cfa_moves); the _partial theorems give the exact value and the registers at every instruction.", "Verif.Props.AlphaAsm")
claim("C105", "partial", ["C105_call_enter_partial", "C105_call_return_partial", "C105_copies", "C105_void_return", "C105_r20_lost", "C105_void_written", "C105_avalue_changed"], "Violated when an 8-byte argument finds one register left (C105_r20_lost), for void results (C105_void_written) and for the caller's avalue (C105_avalue_changed).", "Verif.Props.Or1k")
claim("C106", "proved", ["C106_args", "C106_result"], "Induction over the arguments.", "Verif.Props.Or1k")
claim("C107", "proved", ["C107_trampoline"], "Decoded from the bytes in memory.", "Verif.Props.Or1k")
claim("C108", "partial", ["C108_call_enter", "C108_call_return_partial", "C108_unsigned", "C108_ldouble", "C108_null_struct"], "Arguments are unconditional.  Violated for unsigned results that the function has not extended (C108_unsigned), for long double without a floating-point unit (C108_ldouble) and for structs with rvalue NULL (C108_null_struct).", "Verif.Props.M68k")
claim("C109", "proved", ["C109_closure", "C109_struct"], "Both entry points, four variants.", "Verif.Props.M68k")
claim("C110", "proved", ["C110_trampoline"], "Decoded from the bytes in memory.", "Verif.Props.M68k")
claim("C111", "partial", ["C111_round_trip_partial", "C111_round_trip_struct"], "Missing: long double without a floating-point unit, where C108_ldouble is a witness.", "Verif.Props.M68kTrip")
C.sort(key=lambda c: int(c[0][1:]))
json.dump({"claims": [dict(property=p, status=s, theorems=t, note=n) for p, s, t, n, _ in C]},
          open(os.path.join(ROOT, "MANIFEST.json"), "w"), indent=1, ensure_ascii=False)
mods = sorted({m for *_, m in C})
with open(os.path.join(ROOT, "lean/Verif/Axioms.lean"), "w") as f:
    for m in mods:
        f.write(f"import {m}\n")
    f.write("\n/-! Axioms of every claimed theorem (generated by tools/gen_manifest.py); expected:\nonly `propext`, `Classical.choice`, `Quot.sound`. -/\n\n")
    for p, s, ts, n, m in C:
        for t in ts:
            f.write(f"#print axioms {t}\n")

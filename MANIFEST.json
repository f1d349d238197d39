{
 "claims": [
  {
   "property": "C01",
   "status": "proved",
   "theorems": [
    "Verif.Props.C01_align_up",
    "Verif.Props.C01_align_down"
   ],
   "note": "FFI_ALIGN / FFI_ALIGN_DOWN as 64-bit word expressions."
  },
  {
   "property": "C02",
   "status": "proved",
   "theorems": [
    "Verif.Props.C02_layout",
    "Verif.Props.C02_history"
   ],
   "note": "Heap with shared, nested descriptors; any history of successful calls."
  },
  {
   "property": "C03",
   "status": "proved",
   "theorems": [
    "Verif.Props.C03_offsets"
   ],
   "note": "After any history; struct declared with size 0."
  },
  {
   "property": "C04",
   "status": "proved",
   "theorems": [
    "Verif.Props.C04_bad_abi",
    "Verif.Props.C04_status"
   ],
   "note": "Includes termination of preparation on valid heaps."
  },
  {
   "property": "C05",
   "status": "partial",
   "theorems": [
    "Verif.Props.C05_repeat_partial",
    "Verif.Props.C05_rejection_not_stable"
   ],
   "note": "False for rejected signatures (witness); proved for accepted ones."
  },
  {
   "property": "C06",
   "status": "partial",
   "theorems": [
    "Verif.Props.C06_variadic_partial",
    "Verif.Props.C06_fixed_args_free",
    "Verif.Props.C06_float_copy_accepted"
   ],
   "note": "Float check is by address; witness for a copied float descriptor."
  },
  {
   "property": "C07",
   "status": "proved",
   "theorems": [
    "Verif.Props.C07_frame",
    "Verif.Props.C07_frame_var"
   ],
   "note": "Unconditional: any heap, any outcome."
  },
  {
   "property": "C08",
   "status": "proved",
   "theorems": [
    "Verif.Props.C08_classification"
   ],
   "note": "Every well-formed LP64 type (scalars, complex, nested structs)."
  },
  {
   "property": "C09",
   "status": "proved",
   "theorems": [
    "Verif.Props.C09_classes_bounded",
    "Verif.Props.C09_examine_total"
   ],
   "note": "A write past the class array and abort() are explicit failures of the model."
  },
  {
   "property": "C10",
   "status": "proved",
   "theorems": [
    "Verif.Props.C10_call_safe"
   ],
   "note": "Signatures with less than 4 GiB of stack arguments; any out-of-bounds access is a failure of the model."
  },
  {
   "property": "C11",
   "status": "proved",
   "theorems": [
    "Verif.Props.C11_placement"
   ],
   "note": "Registers and stack offsets of the psABI, sign/zero extension, static chain."
  },
  {
   "property": "C12",
   "status": "proved",
   "theorems": [
    "Verif.Props.C12_closure_args"
   ],
   "note": "Any register and stack contents left by a psABI caller."
  },
  {
   "property": "C13",
   "status": "proved",
   "theorems": [
    "Verif.Props.C13_call_closure"
   ],
   "note": "Composition of ffi_call and closure entry; all non-padding bytes."
  },
  {
   "property": "C14",
   "status": "proved",
   "theorems": [
    "Verif.Props.C14_vector_count",
    "Verif.Props.C11_placement"
   ],
   "note": "%al = number of vector registers used, at most 8."
  },
  {
   "property": "C15",
   "status": "partial",
   "theorems": [
    "Verif.Props.C15_fetch_partial",
    "Verif.Props.C15_leave_partial",
    "Verif.Props.C15_struct_long_double"
   ],
   "note": "False for struct { long double } (witness); proved for every other type."
  },
  {
   "property": "C16",
   "status": "proved",
   "theorems": [
    "Verif.Props.C16_result_bytes",
    "Verif.Props.C16_null"
   ],
   "note": "All return types and register contents."
  },
  {
   "property": "C17",
   "status": "proved",
   "theorems": [
    "Verif.Props.C17_result_round_trip"
   ],
   "note": "All types returned in registers."
  },
  {
   "property": "C18",
   "status": "proved",
   "theorems": [
    "Verif.Props.C18_memory_result"
   ],
   "note": "ffi_call and closure side, including rvalue == NULL."
  },
  {
   "property": "C19",
   "status": "partial",
   "theorems": [
    "Verif.Props.C19_avalue_partial",
    "Verif.Props.C19_overwritten"
   ],
   "note": "False whenever a struct larger than 16 bytes is passed (proved for every such signature)."
  },
  {
   "property": "C20",
   "status": "proved",
   "theorems": [
    "Verif.Props.C20_dynamic_trampoline"
   ],
   "note": "Instruction-level execution of the trampoline bytes."
  },
  {
   "property": "C21",
   "status": "proved",
   "theorems": [
    "Verif.Props.C21_static_trampoline",
    "Verif.Props.C21_blocks_disjoint"
   ],
   "note": "Instruction-level execution of every slot, CET and non-CET."
  },
  {
   "property": "C22",
   "status": "proved",
   "theorems": [
    "Verif.Props.C22_call",
    "Verif.Props.C22_null_result",
    "Verif.Props.C22_closure",
    "Verif.Props.C22_round_trip"
   ],
   "note": "Flat memory; by-value and by-reference arguments; both ABI variants."
  },
  {
   "property": "C23",
   "status": "partial",
   "theorems": [
    "Verif.Props.C23_isolated_partial",
    "Verif.Props.C23_shared"
   ],
   "note": "Proved when all by-reference arguments are structs above 8 bytes; false for every other by-reference type (proved for all such signatures)."
  },
  {
   "property": "C24",
   "status": "proved",
   "theorems": [
    "Verif.Props.C24_result",
    "Verif.Props.C24_null",
    "Verif.Props.C24_closure",
    "Verif.Props.C24_round_trip"
   ],
   "note": "All return types; 80-bit long double with FFI_WIN64 aborts."
  },
  {
   "property": "C25",
   "status": "partial",
   "theorems": [
    "Verif.Props.C25_encode",
    "Verif.Props.C25_decode_partial",
    "Verif.Props.C25_overrun"
   ],
   "note": "Encoding proved for all configurations; decoding false on little-endian targets with ffi_arg wider than pointers (proved for every such signature)."
  },
  {
   "property": "C26",
   "status": "partial",
   "theorems": [
    "Verif.Props.C26_round_trip_partial",
    "Verif.Props.C26_x32"
   ],
   "note": "As C25; proved for all configurations except x32-like ones, and there for arguments up to pointer size."
  },
  {
   "property": "C27",
   "status": "partial",
   "theorems": [
    "Verif.Props.C27_raw_partial",
    "Verif.Props.C27_java_partial",
    "Verif.Props.C27_static"
   ],
   "note": "Proved when the code address aliases the closure (dynamic trampolines); false with static trampolines, where function and data are read from the trampoline code page."
  },
  {
   "property": "C28",
   "status": "partial",
   "theorems": [
    "Verif.Props.C28_arguments",
    "Verif.Props.C28_size_total",
    "Verif.Props.C28_narrow_result",
    "Verif.Props.C28_other_result_partial",
    "Verif.Props.C28_pointer_result",
    "Verif.Props.C28_long_double_overrun"
   ],
   "note": "Arguments and all results proved except pointer results with 32-bit Java slots on 64-bit big-endian (false, witness)."
  },
  {
   "property": "C29",
   "status": "proved",
   "theorems": [
    "Verif.Props.C29_exclusive",
    "Verif.Props.C29_fresh",
    "Verif.Props.C29_stable"
   ],
   "note": "Pointer-level model of the tables and both lists; every history, platform behaviour and change by the rest of the process. Each API call is one step because it holds the lock from beginning to end."
  },
  {
   "property": "C30",
   "status": "proved",
   "theorems": [
    "Verif.Props.C30_no_fault",
    "Verif.Props.C30_mapped",
    "Verif.Props.C30_others"
   ],
   "note": "Access to a freed or unallocated block is a fault of the model."
  },
  {
   "property": "C31",
   "status": "proved",
   "theorems": [
    "Verif.Props.C31_bound",
    "Verif.Props.C31_no_leak"
   ],
   "note": ""
  },
  {
   "property": "C32",
   "status": "proved",
   "theorems": [
    "Verif.Props.C32_failure",
    "Verif.Props.C32_free_slot"
   ],
   "note": "A failed initialisation is permanent, which the statement lists as a reason."
  },
  {
   "property": "C33",
   "status": "proved",
   "theorems": [
    "Verif.Props.C33_parms",
    "Verif.Props.C33_frame",
    "Verif.Props.C33_jump"
   ],
   "note": "C33_jump combines the history with instruction-level execution of the x86-64 trampoline."
  },
  {
   "property": "C34",
   "status": "partial",
   "theorems": [
    "Verif.Props.C34_serial_partial",
    "Verif.Props.C34_race"
   ],
   "note": "Calls that do not overlap in time: proved for all histories of segments, with dlmalloc's chunks as assumption. Interleaved: false, the unlocked segment lookup can miss a segment while another thread adds one (proved for every such state)."
  },
  {
   "property": "C35",
   "status": "partial",
   "theorems": [
    "Verif.Props.C35_search",
    "Verif.Props.C35_map_partial",
    "Verif.Props.C35_loops",
    "Verif.Props.C35_full",
    "Verif.Props.C35_half_read"
   ],
   "note": "Every search ends and tries every location (all answers of the system, all reachable states). dlmmap_locked ends with mounts files; without them it can loop forever (proved), a full file system stops the search, and a mounts file left half read by tramp.c is continued."
  },
  {
   "property": "C36",
   "status": "partial",
   "theorems": [
    "Verif.Props.C36_views_partial",
    "Verif.Props.C36_storage_partial",
    "Verif.Props.C36_no_abort_partial",
    "Verif.Props.C36_half"
   ],
   "note": "Every history of allocation, merging, trimming and release without a munmap that fails half way; false with one (witness)."
  },
  {
   "property": "C37",
   "status": "partial",
   "theorems": [
    "Verif.Props.C37_exclusive",
    "Verif.Props.C37_alloc",
    "Verif.Props.C37_calloc",
    "Verif.Props.C37_free_partial",
    "Verif.Props.C37_one_table",
    "Verif.Props.C37_use_after_free"
   ],
   "note": "No trampoline is handed out twice (all histories). Use after free: false from three tables on (witness for every page size with at least two trampolines), proved for processes whose closures fit into one table and for states without a link to a freed table."
  },
  {
   "property": "C38",
   "status": "proved",
   "theorems": [
    "Verif.Props.C38_hfa",
    "Verif.Props.C38_empty_members_fault"
   ],
   "note": "For all well-formed types; a preset-size struct of empty structs (not well-formed) makes is_vfp_type run past the member list."
  },
  {
   "property": "C39",
   "status": "partial",
   "theorems": [
    "Verif.Props.C39_closure_partial",
    "Verif.Props.C39_call_closure_partial",
    "Verif.Props.C39_reference_slot",
    "Verif.Props.C39_apple_reference_slot",
    "Verif.Props.C39_win64_variadic",
    "Verif.Props.C39_win64_spill"
   ],
   "note": "Proved for every caller that follows the standard and for every ffi_call whose reserved area suffices and whose references on the stack get a pointer's slot; false for references to 16-byte aligned objects, references at odd offsets on Apple, and homogeneous aggregates in variadic FFI_WIN64 calls (witnesses)."
  },
  {
   "property": "C40",
   "status": "partial",
   "theorems": [
    "Verif.Props.C40_area_partial",
    "Verif.Props.C40_reserved_values",
    "Verif.Props.C40_reserved_references_partial",
    "Verif.Props.C40_overlap",
    "Verif.Props.C40_overlap_aligned"
   ],
   "note": "Every signature without arguments passed by reference; with them if alignment is at most 8 and references on the stack are paid for by register arguments; false otherwise (witnesses)."
  },
  {
   "property": "C41",
   "status": "proved",
   "theorems": [
    "Verif.Props.C41_call",
    "Verif.Props.C41_null",
    "Verif.Props.C41_closure",
    "Verif.Props.C41_memory",
    "Verif.Props.C41_roundtrip"
   ],
   "note": ""
  },
  {
   "property": "C42",
   "status": "partial",
   "theorems": [
    "Verif.Props.C42_arguments_partial",
    "Verif.Props.C42_arguments_soft",
    "Verif.Props.C42_lost"
   ],
   "note": "All signatures on targets without float argument registers; otherwise all in which no named struct of one real is met with all eight float registers in use. C42_lost is a counterexample beyond that."
  },
  {
   "property": "C43",
   "status": "partial",
   "theorems": [
    "Verif.Props.C43_slots",
    "Verif.Props.C43_stores_partial",
    "Verif.Props.C43_stores_soft",
    "Verif.Props.C43_overrun"
   ],
   "note": "C43_slots is the exact condition (equivalence) under which no float slot beyond the eighth is written; under it all stores are in the block. C43_overrun is a counterexample."
  },
  {
   "property": "C44",
   "status": "partial",
   "theorems": [
    "Verif.Props.C44_widened_partial",
    "Verif.Props.C44_widened_rv32",
    "Verif.Props.C44_roundtrip_partial",
    "Verif.Props.C44_uint32_sign_extended"
   ],
   "note": "All types on 32-bit targets; on 64-bit targets all but uint32_t, for which the property is false (C44_uint32_sign_extended)."
  },
  {
   "property": "C45",
   "status": "partial",
   "theorems": [
    "Verif.Props.C45_roundtrip_partial",
    "Verif.Props.C45_closure_partial",
    "Verif.Props.C45_register_swapped",
    "Verif.Props.C45_register_lost",
    "Verif.Props.C45_pascal_lost",
    "Verif.Props.C45_small_complex_aborts",
    "Verif.Props.C45_pcc_handler"
   ],
   "note": "All signatures for sysv, thiscall, fastcall, stdcall, ms_cdecl; pascal if the result is not in memory. False for every FFI_REGISTER closure, for pascal with a result in memory, for complex types of at most four bytes, and with PCC and PIC without hidden visibility."
  },
  {
   "property": "C46",
   "status": "partial",
   "theorems": [
    "Verif.Props.C46_pop_exact_partial",
    "Verif.Props.C46_stdcall_win32",
    "Verif.Props.C46_go_never_pops",
    "Verif.Props.C46_fastcall_wrong",
    "Verif.Props.C46_padding_wrong",
    "Verif.Props.C46_pascal_wrong"
   ],
   "note": "C46_pop_exact_partial is the exact condition (equivalence) if no argument needs padding; false outside it, with padding, for pascal, and for thiscall and fastcall Go closures (all of them)."
  },
  {
   "property": "C47",
   "status": "partial",
   "theorems": [
    "Verif.Props.C47_raw_partial",
    "Verif.Props.C47_fastcall_wrong",
    "Verif.Props.C47_overread",
    "Verif.Props.C47_below_block",
    "Verif.Props.C47_pascal_wrong"
   ],
   "note": "Proved for the conventions without registers and arguments aligned to at most four bytes; false with registers, for pascal, and as regards reading only the raw buffer."
  },
  {
   "property": "C48",
   "status": "partial",
   "theorems": [
    "Verif.Props.C48_bytes_partial",
    "Verif.Props.C48_reserved_partial",
    "Verif.Props.C48_bytes_wrap"
   ],
   "note": "Proved below 4 GiB; 32-bit wrap witness."
  },
  {
   "property": "C49",
   "status": "partial",
   "theorems": [
    "Verif.Props.C49_one_table_partial",
    "Verif.Props.C49_leak"
   ],
   "note": "False: any number of tables can stay allocated with no closure live; proved for processes whose closures fit into one table."
  },
  {
   "property": "C50",
   "status": "partial",
   "theorems": [
    "Verif.Props.C50_backed_partial",
    "Verif.Props.C50_hole"
   ],
   "note": "Proved while the file was never truncated, failed writes included; false after a failed mmap (witness)."
  },
  {
   "property": "C51",
   "status": "partial",
   "theorems": [
    "Verif.Props.C51_args_partial",
    "Verif.Props.C51_args_values"
   ],
   "note": "All signatures without arguments passed by reference (C51_args_values); with references under the conditions of C40 and for slots the code aligns like a pointer."
  },
  {
   "property": "C52",
   "status": "partial",
   "theorems": [
    "Verif.Props.C52_args_partial",
    "Verif.Props.C52_args_soft",
    "Verif.Props.C52_misaligned"
   ],
   "note": "Restriction as for C42; references are shown aligned if no argument type is aligned beyond XLEN, false otherwise (C52_misaligned)."
  },
  {
   "property": "C53",
   "status": "partial",
   "theorems": [
    "Verif.Props.C53_call",
    "Verif.Props.C53_memory",
    "Verif.Props.C53_closure",
    "Verif.Props.C53_roundtrip",
    "Verif.Props.C53_void_stores"
   ],
   "note": "All object types; false for void functions called with an rvalue (C53_void_stores)."
  },
  {
   "property": "C54",
   "status": "partial",
   "theorems": [
    "Verif.Props.C54_placement_partial",
    "Verif.Props.C54_reversed_partial",
    "Verif.Props.C54_pascal_gap",
    "Verif.Props.C54_pascal_hidden_lost"
   ],
   "note": "All signatures for the five conventions that push from right to left; for pascal and register exact up to the padding at the top of the block, and false because of it and with a result in memory."
  },
  {
   "property": "C55",
   "status": "partial",
   "theorems": [
    "Verif.Props.C55_call",
    "Verif.Props.C55_other_partial",
    "Verif.Props.C55_closure_partial",
    "Verif.Props.C55_roundtrip_partial",
    "Verif.Props.C45_register_swapped",
    "Verif.Props.C54_pascal_hidden_lost"
   ],
   "note": "All result types and both sides for the five conventions that push from right to left; for pascal and register the call side for results not in memory. False for register closures (they return to their own address) and for results in memory under pascal and register."
  },
  {
   "property": "C56",
   "status": "partial",
   "theorems": [
    "Verif.Props.C56_dynamic",
    "Verif.Props.C56_entry",
    "Verif.Props.C56_static",
    "Verif.Props.C56_blocks_disjoint",
    "Verif.Props.C56_raw",
    "Verif.Props.C56_raw_static"
   ],
   "note": "Proved by execution of the instructions for every convention and both kinds of trampolines, and for raw closures without static trampolines; false for every raw closure with static trampolines (C56_raw_static), whose parameter block is never filled."
  },
  {
   "property": "C57",
   "status": "partial",
   "theorems": [
    "Verif.Props.C57_arguments_partial",
    "Verif.Props.C57_result_partial",
    "Verif.Props.C57_pop_sysv",
    "Verif.Props.C57_pop_thiscall",
    "Verif.Props.C57_thiscall_order",
    "Verif.Props.C57_memory_result"
   ],
   "note": "Arguments and results proved for all signatures with the result not in memory and, under FFI_THISCALL, a first argument in the register. False for every result in memory and every other first argument; under FFI_THISCALL the stack pointer is right exactly if no argument is on the stack (equivalence)."
  },
  {
   "property": "C58",
   "status": "proved",
   "theorems": [
    "Verif.Props.C58_dynamic",
    "Verif.Props.C58_dynamic_footprint",
    "Verif.Props.C58_static",
    "Verif.Props.C58_blocks_disjoint",
    "Verif.Props.C58_mach"
   ],
   "note": "Proved by execution of the instructions decoded from memory, for dynamic trampolines, the static table and the Mach page."
  },
  {
   "property": "C59",
   "status": "proved",
   "theorems": [
    "Verif.Props.C59_dynamic",
    "Verif.Props.C59_accepts",
    "Verif.Props.C59_go"
   ],
   "note": "Trampoline decoded from memory and executed; the entry points instruction by instruction, on all six ABIs."
  },
  {
   "property": "C60",
   "status": "partial",
   "theorems": [
    "Verif.Props.C60_closure",
    "Verif.Props.C60_closure_refines",
    "Verif.Props.C60_call_enter",
    "Verif.Props.C60_call_partial",
    "Verif.Props.C60_call_sp",
    "Verif.Props.C60_call_refines"
   ],
   "note": "All registers for the closure entry points; all but the stack pointer for ffi_call_asm, which never restores it if the block has anything below the register image (C60_call_sp). The two refinement theorems tie the instructions to the models of C52 and C53."
  },
  {
   "property": "C61",
   "status": "partial",
   "theorems": [
    "Verif.Props.C61_call_enter",
    "Verif.Props.C61_call",
    "Verif.Props.C61_call_refines",
    "Verif.Props.C61_closure_enter",
    "Verif.Props.C61_closure",
    "Verif.Props.C61_closure_refines",
    "Verif.Props.C61_go_enter",
    "Verif.Props.C61_go_partial",
    "Verif.Props.C61_go_unsigned"
   ],
   "note": "Calls and closures in all three modes of pointer authentication; Go closures except those with vector arguments under Linux pointer authentication, which never return (C61_go_unsigned). The two refinement theorems tie the instructions to the models of C51 and C39."
  },
  {
   "property": "C62",
   "status": "partial",
   "theorems": [
    "Verif.Props.C62_call_enter_partial",
    "Verif.Props.C62_call_exit",
    "Verif.Props.C62_closure_enter",
    "Verif.Props.C62_go_enter",
    "Verif.Props.C62_closure_exit",
    "Verif.Props.C62_call_clobbered",
    "Verif.Props.C62_call_unsafe"
   ],
   "note": "Everything except the entry of ffi_call_SYSV under Linux pointer authentication, where the stack pointer is above the arguments while the return address is signed: there a handler determines the argument registers (C62_call_clobbered), for every call (C62_call_unsafe)."
  },
  {
   "property": "C63",
   "status": "proved",
   "theorems": [
    "Verif.Props.C63_call_enter",
    "Verif.Props.C63_call_return",
    "Verif.Props.C63_closure_enter",
    "Verif.Props.C63_closure_return",
    "Verif.Props.C63_alt_enter"
   ],
   "note": "By execution of every instruction of unix64.S with interruptions; both halves of calls and closures, refinement to enter, spill, storeRet and loadRet."
  },
  {
   "property": "C64",
   "status": "partial",
   "theorems": [
    "Verif.Props.C64_call_enter_partial",
    "Verif.Props.C64_call_return_partial",
    "Verif.Props.C64_call_inside_partial",
    "Verif.Props.C64_closure_enter_partial",
    "Verif.Props.C64_closure_return_partial",
    "Verif.Props.C64_closure_inside_partial",
    "Verif.Props.C64_alt"
   ],
   "note": "Everywhere but in ffi_closure_unix64_alt and ffi_closure_unix64_sse_alt, which the table leaves out (C64_alt). The tables are interpreted byte by byte; every instruction of every interrupted execution and the call sites."
  },
  {
   "property": "C65",
   "status": "proved",
   "theorems": [
    "Verif.Props.C65_call",
    "Verif.Props.C65_call_return",
    "Verif.Props.C65_closure",
    "Verif.Props.C65_closure_return",
    "Verif.Props.C63_alt_enter",
    "Verif.Props.C65_entries"
   ],
   "note": "exec has no result for an indirect jump to anything but endbr64 or a return that differs from the shadow stack; progress is proved for every reachable state."
  },
  {
   "property": "C66",
   "status": "proved",
   "theorems": [
    "Verif.Props.C66_vfp_type_p",
    "Verif.Props.C66_layout",
    "Verif.Props.C66_lowest"
   ],
   "note": "By induction over types and over the list of arguments; layout_vfp_args equals the places of the specification."
  },
  {
   "property": "C67",
   "status": "partial",
   "theorems": [
    "Verif.Props.C67_arguments_partial",
    "Verif.Props.C67_conforms_partial",
    "Verif.Props.C67_soft",
    "Verif.Props.C67_core_left_open",
    "Verif.Props.arm_conforms_soft",
    "Verif.Props.arm_conforms_regs",
    "Verif.Props.arm_conforms_words"
   ],
   "note": "Arguments are placed by AAPCS32 with rule C.6 relaxed; the places are those of the standard for FFI_SYSV and variadic functions, if every VFP candidate gets registers, and if every other argument is one word. Violated otherwise: C67_core_left_open. Functions with complex results in memory and 8-byte-aligned arguments excluded (C68_overflow)."
  },
  {
   "property": "C68",
   "status": "partial",
   "theorems": [
    "Verif.Props.C68_stores_partial",
    "Verif.Props.C68_overflow"
   ],
   "note": "Except for complex results in memory with an argument aligned to 8 bytes, where one word is missing: C68_overflow."
  },
  {
   "property": "C69",
   "status": "partial",
   "theorems": [
    "Verif.Props.C69_arguments_partial",
    "Verif.Props.C69_conforms_partial",
    "Verif.Props.C69_round_trip",
    "Verif.Props.C69_core_left_open"
   ],
   "note": "Relaxed rule C.6 as in C67 (C69_core_left_open); calls through ffi_call always find their arguments (C69_round_trip)."
  },
  {
   "property": "C70",
   "status": "partial",
   "theorems": [
    "Verif.Props.C70_call_partial",
    "Verif.Props.C70_call_null",
    "Verif.Props.C70_closure",
    "Verif.Props.C70_temporary_misaligned",
    "Verif.Props.C70_complex_char"
   ],
   "note": "Violated: the temporary area is never aligned to 8 bytes (C70_temporary_misaligned, all calls); four bytes are stored for complex types of two bytes (C70_complex_char)."
  },
  {
   "property": "C71",
   "status": "proved",
   "theorems": [
    "Verif.Props.C71_machdep",
    "Verif.Props.C71_layout_iff",
    "Verif.Props.C71_success",
    "Verif.Props.C71_x64",
    "Verif.Props.C71_aarch64",
    "Verif.Props.C71_arm",
    "Verif.Props.C71_x86",
    "Verif.Props.C71_riscv"
   ],
   "note": "Declared types unfold to well-formed trees after layout; the stages of x86-64 (SysV and Windows), AArch64, ARM, 32-bit x86 and RISC-V are plugged in."
  },
  {
   "property": "C72",
   "status": "partial",
   "theorems": [
    "Verif.Props.C72_args_partial",
    "Verif.Props.C72_args_soft",
    "Verif.Props.C72_room_direct",
    "Verif.Props.C72_room_registers",
    "Verif.Props.C72_room_exact",
    "Verif.Props.C72_lost_copy"
   ],
   "note": "Under two conditions: no struct of one real beyond the eighth floating-point register (exact: C73_slots), and room for the copies (sufficient: C72_room_direct, C72_room_registers; necessary, and for types of sizes that are multiples of eight exact: C72_room_exact). False otherwise: C72_lost_copy."
  },
  {
   "property": "C73",
   "status": "partial",
   "theorems": [
    "Verif.Props.C73_slots",
    "Verif.Props.C73_stores_partial",
    "Verif.Props.C73_below",
    "Verif.Props.C73_overlap",
    "Verif.Props.C73_above",
    "Verif.Props.C73_result_misaligned"
   ],
   "note": "Under the conditions of C72; false otherwise (copies below the stack pointer: C73_below; overlapping: C73_overlap; above the block: C73_above); unwanted results may be misaligned (C73_result_misaligned)."
  },
  {
   "property": "C74",
   "status": "partial",
   "theorems": [
    "Verif.Props.C74_call_partial",
    "Verif.Props.C74_tail",
    "Verif.Props.C74_memory",
    "Verif.Props.C74_widened_partial",
    "Verif.Props.C74_closure",
    "Verif.Props.C74_roundtrip",
    "Verif.Props.C74_beyond",
    "Verif.Props.C74_void_stores",
    "Verif.Props.C74_uint32_sign_extended"
   ],
   "note": "Members of all results; false for the bytes behind struct { float; int } (C74_beyond), for void functions with an rvalue (C74_void_stores) and for the extension of uint32_t (C74_uint32_sign_extended)."
  },
  {
   "property": "C75",
   "status": "partial",
   "theorems": [
    "Verif.Props.C75_arguments_partial",
    "Verif.Props.C75_standard_partial",
    "Verif.Props.C75_lost"
   ],
   "note": "Under the conditions of C72 for calls; for any caller only the first condition. False otherwise (C75_lost)."
  },
  {
   "property": "C76",
   "status": "proved",
   "theorems": [
    "Verif.Props.dl_malloc",
    "Verif.Props.dl_free",
    "Verif.Props.dl_refused"
   ],
   "note": "Over the chunk-level model (links of free chunks are lists and trees)."
  },
  {
   "property": "C77",
   "status": "proved",
   "theorems": [
    "Verif.Props.dl_blocks"
   ],
   "note": "As C76."
  },
  {
   "property": "C78",
   "status": "proved",
   "theorems": [
    "Verif.Props.dl_unmapped",
    "Verif.Props.dl_free"
   ],
   "note": "As C76."
  },
  {
   "property": "C79",
   "status": "proved",
   "theorems": [
    "Verif.Props.dl_tiled",
    "Verif.Props.dl_all_freed"
   ],
   "note": "As C76; rows of chunks are read from the head words in memory."
  },
  {
   "property": "C80",
   "status": "proved",
   "theorems": [
    "Verif.Props.dl_fit",
    "Verif.Props.dl_top",
    "Verif.Props.dl_system_last",
    "Verif.Props.dl_refused_nofit"
   ],
   "note": "As C76; the trees are shown to be tries over the size bits (with the shift amounts of the macros), the searches to find the least size."
  },
  {
   "property": "C81",
   "status": "proved",
   "theorems": [
    "Verif.Props.heap_chunks",
    "Verif.Props.heap_closures",
    "Verif.Props.heap_alloc",
    "Verif.Props.heap_free"
   ],
   "note": "For histories without a munmap of data that fails after that of its code. 64-bit; the chunk model and the segment model run side by side, each decision that one model leaves open is answered by the other."
  },
  {
   "property": "C82",
   "status": "partial",
   "theorems": [
    "Verif.Props.s390_call_partial",
    "Verif.Props.s390_bytes_wrap"
   ],
   "note": "For argument areas below 4 GiB: cif->bytes has 32 bits, a struct of 4 GiB is copied far below the stack (s390_bytes_wrap)."
  },
  {
   "property": "C83",
   "status": "partial",
   "theorems": [
    "Verif.Props.s390_closure_partial",
    "Verif.Props.s390_go_closure_partial",
    "Verif.Props.s390_closure_r6"
   ],
   "note": "For handlers that do not assign to their fifth word: call-saved r6 is restored from there (s390_closure_r6)."
  },
  {
   "property": "C84",
   "status": "proved",
   "theorems": [
    "Verif.Props.s390_trampoline",
    "Verif.Props.s390_static_trampoline"
   ],
   "note": "Decoded from the bytes."
  },
  {
   "property": "C85",
   "status": "partial",
   "theorems": [
    "Verif.Props.s390_round_trip_partial"
   ],
   "note": "Under the conditions of C82 and C83."
  },
  {
   "property": "C86",
   "status": "partial",
   "theorems": [
    "Verif.Props.ppc_call_partial",
    "Verif.Props.ppc_bytes_wrap",
    "Verif.Props.ppc_null_C86"
   ],
   "note": "For frames below 4 GiB: cif->bytes has 32 bits (ppc_bytes_wrap); a null rvalue only for structs and void (ppc_null_C86)."
  },
  {
   "property": "C87",
   "status": "partial",
   "theorems": [
    "Verif.Props.ppc_closure_partial",
    "Verif.Props.ppc_go_closure_partial",
    "Verif.Props.ppc_closure_ibm_C87",
    "Verif.Props.ppc_closure_alias_C87",
    "Verif.Props.ppc_closure_area_C87"
   ],
   "note": "Under three conditions, false otherwise: the last named argument is not an IBM long double in registers (ppc_closure_ibm_C87), at most one variable argument is a homogeneous struct (ppc_closure_alias_C87), the caller has a parameter area where ffi_prep_cif expects it (ppc_closure_area_C87)."
  },
  {
   "property": "C88",
   "status": "proved",
   "theorems": [
    "Verif.Props.ppc_trampoline",
    "Verif.Props.ppc_static_trampoline"
   ],
   "note": "Decoded from the bytes."
  },
  {
   "property": "C89",
   "status": "partial",
   "theorems": [
    "Verif.Props.ppc_round_trip_partial"
   ],
   "note": "Under the conditions of C86 and the first two of C87."
  },
  {
   "property": "C90",
   "status": "proved",
   "theorems": [
    "Verif.Props.C90_call_enter",
    "Verif.Props.C90_call_return",
    "Verif.Props.C90_call_result",
    "Verif.Props.C90_closure_enter",
    "Verif.Props.C90_alt_enter",
    "Verif.Props.C90_trampoline",
    "Verif.Props.C90_closure_return",
    "Verif.Props.C90_closure_result",
    "Verif.Props.C90_round_trip"
   ],
   "note": "By execution of every instruction of win64.S with interruptions; refinement to the models of C22-C24."
  },
  {
   "property": "C91",
   "status": "partial",
   "theorems": [
    "Verif.Props.C91_call_enter_partial",
    "Verif.Props.C91_call_return_partial",
    "Verif.Props.C91_call_inside_partial",
    "Verif.Props.C91_closure_enter_partial",
    "Verif.Props.C91_closure_return_partial",
    "Verif.Props.C91_closure_inside_partial",
    "Verif.Props.C91_alt"
   ],
   "note": "Everywhere but in ffi_closure_win64_alt, where it is false for every state: C91_alt."
  },
  {
   "property": "C92",
   "status": "proved",
   "theorems": [
    "Verif.Props.C92_call",
    "Verif.Props.C92_call_return",
    "Verif.Props.C92_closure",
    "Verif.Props.C92_closure_return",
    "Verif.Props.C90_alt_enter",
    "Verif.Props.C92_entries"
   ],
   "note": "exec has no result for an instruction that faults; progress is proved for every reachable state."
  },
  {
   "property": "C93",
   "status": "proved",
   "theorems": [
    "Verif.Props.C93_dynamic",
    "Verif.Props.C93_static",
    "Verif.Props.C93_accepts",
    "Verif.Props.C93_go"
   ],
   "note": "Decoded from the bytes in memory. lp64s, lp64f (intended expansion, see DESIGN) and lp64d."
  },
  {
   "property": "C94",
   "status": "partial",
   "theorems": [
    "Verif.Props.C94_closure",
    "Verif.Props.C94_closure_refines",
    "Verif.Props.C94_call_enter",
    "Verif.Props.C94_call_partial",
    "Verif.Props.C94_call_sp",
    "Verif.Props.C94_call_refines"
   ],
   "note": "All registers for the closure entry points; all but the stack pointer for ffi_call_asm, which never restores it if the block has anything below the register image (C94_call_sp). The refinement theorems tie the instructions to the models of C72-C75."
  },
  {
   "property": "C95",
   "status": "proved",
   "theorems": [
    "Verif.Props.C95_call_enter",
    "Verif.Props.C95_call_return",
    "Verif.Props.C95_closure_enter",
    "Verif.Props.C95_closure_return",
    "Verif.Props.C95_la_call_enter",
    "Verif.Props.C95_la_call_return",
    "Verif.Props.C95_la_closure_enter",
    "Verif.Props.C95_la_closure_return"
   ],
   "note": "Interruptions as a relation (Visits): before every instruction the memory from lo to the stack pointer may change."
  },
  {
   "property": "C96",
   "status": "proved",
   "theorems": [
    "Verif.Props.C96_call_in",
    "Verif.Props.C96_call_inside",
    "Verif.Props.C96_call_out",
    "Verif.Props.C96_closure_in",
    "Verif.Props.C96_closure_inside",
    "Verif.Props.C96_closure_out",
    "Verif.Props.C96_code",
    "Verif.Props.C96_la_call_in",
    "Verif.Props.C96_la_call_inside",
    "Verif.Props.C96_la_call_out",
    "Verif.Props.C96_la_closure_in",
    "Verif.Props.C96_la_closure_inside",
    "Verif.Props.C96_la_closure_out",
    "Verif.Props.C96_la_code"
   ],
   "note": "The directives are kept as items between the instructions and interpreted."
  },
  {
   "property": "C97",
   "status": "partial",
   "theorems": [
    "Verif.Props.C97_call_enter",
    "Verif.Props.C97_call_return_partial",
    "Verif.Props.C97_closure_enter",
    "Verif.Props.C97_closure_return"
   ],
   "note": "Compared with the model of C66-C70. Missing: the stack pointer after ffi_call_SYSV, which is the end of its frame (exact value proved)."
  },
  {
   "property": "C98",
   "status": "partial",
   "theorems": [
    "Verif.Props.C98_call_enter_partial",
    "Verif.Props.C98_call_return_partial",
    "Verif.Props.C98_call_inside_partial",
    "Verif.Props.C98_call_ehabi_partial",
    "Verif.Props.C98_closure_enter_partial",
    "Verif.Props.C98_closure_return",
    "Verif.Props.C98_closure_inside",
    "Verif.Props.C98_alt_missing"
   ],
   "note": "Violated at the entry points for static trampolines, which have no call frame information (C98_alt_missing), and for the stack pointer of ffi_call_SYSV."
  },
  {
   "property": "C99",
   "status": "proved",
   "theorems": [
    "Verif.Props.C99_abi",
    "Verif.Props.C99_dynamic",
    "Verif.Props.C99_dynamic_inner",
    "Verif.Props.C99_go",
    "Verif.Props.C99_static",
    "Verif.Props.C99_static_inner"
   ],
   "note": "Instructions decoded from the bytes in memory; ARM mode."
  },
  {
   "property": "C100",
   "status": "partial",
   "theorems": [
    "Verif.Props.C100_call_partial",
    "Verif.Props.C100_bytes_wrap",
    "Verif.Props.C100_shared"
   ],
   "note": "Violated for argument areas of 4 GiB and more (C100_bytes_wrap) and for the independence of by-reference arguments (C100_shared); C100_call_partial assumes only that the area is below 4 GiB."
  },
  {
   "property": "C101",
   "status": "proved",
   "theorems": [
    "Verif.Props.C101_closure",
    "Verif.Props.C101_go_closure"
   ],
   "note": "Both entry points, both instruction set variants."
  },
  {
   "property": "C102",
   "status": "partial",
   "theorems": [
    "Verif.Props.C102_trampoline",
    "Verif.Props.C102_round_trip_partial",
    "Verif.Props.C102_go_round_trip_partial"
   ],
   "note": "Round trips inherit the 4 GiB bound of C100."
  },
  {
   "property": "C103",
   "status": "partial",
   "theorems": [
    "Verif.Props.C103_call_enter_partial",
    "Verif.Props.C103_call_return_partial",
    "Verif.Props.C103_closure_enter",
    "Verif.Props.C103_go_enter",
    "Verif.Props.C103_closure_return"
   ],
   "note": "Calls inherit the 4 GiB bound of C100; closures are unconditional."
  },
  {
   "property": "C104",
   "status": "partial",
   "theorems": [
    "Verif.Props.C104_call_enter_partial",
    "Verif.Props.C104_call_inside_partial",
    "Verif.Props.C104_call_return_partial",
    "Verif.Props.C104_closure_enter",
    "Verif.Props.C104_closure_inside",
    "Verif.Props.C104_closure_return",
    "Verif.Props.C104_cfa_moves"
   ],
   "note": "Violated for the frame address of ffi_call_osf, which moves (C104_cfa_moves); the _partial theorems give the exact value and the registers at every instruction."
  },
  {
   "property": "C105",
   "status": "partial",
   "theorems": [
    "Verif.Props.C105_call_enter_partial",
    "Verif.Props.C105_call_return_partial",
    "Verif.Props.C105_copies",
    "Verif.Props.C105_void_return",
    "Verif.Props.C105_r20_lost",
    "Verif.Props.C105_void_written",
    "Verif.Props.C105_avalue_changed"
   ],
   "note": "Violated when an 8-byte argument finds one register left (C105_r20_lost), for void results (C105_void_written) and for the caller's avalue (C105_avalue_changed)."
  },
  {
   "property": "C106",
   "status": "proved",
   "theorems": [
    "Verif.Props.C106_args",
    "Verif.Props.C106_result"
   ],
   "note": "Induction over the arguments."
  },
  {
   "property": "C107",
   "status": "proved",
   "theorems": [
    "Verif.Props.C107_trampoline"
   ],
   "note": "Decoded from the bytes in memory."
  },
  {
   "property": "C108",
   "status": "partial",
   "theorems": [
    "Verif.Props.C108_call_enter",
    "Verif.Props.C108_call_return_partial",
    "Verif.Props.C108_unsigned",
    "Verif.Props.C108_ldouble",
    "Verif.Props.C108_null_struct"
   ],
   "note": "Arguments are unconditional.  Violated for unsigned results that the function has not extended (C108_unsigned), for long double without a floating-point unit (C108_ldouble) and for structs with rvalue NULL (C108_null_struct)."
  },
  {
   "property": "C109",
   "status": "proved",
   "theorems": [
    "Verif.Props.C109_closure",
    "Verif.Props.C109_struct"
   ],
   "note": "Both entry points, four variants."
  },
  {
   "property": "C110",
   "status": "proved",
   "theorems": [
    "Verif.Props.C110_trampoline"
   ],
   "note": "Decoded from the bytes in memory."
  },
  {
   "property": "C111",
   "status": "partial",
   "theorems": [
    "Verif.Props.C111_round_trip_partial",
    "Verif.Props.C111_round_trip_struct"
   ],
   "note": "Missing: long double without a floating-point unit, where C108_ldouble is a witness."
  }
 ]
}
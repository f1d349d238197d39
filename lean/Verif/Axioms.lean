import Verif.Props.AArch64
import Verif.Props.AArch64Asm
import Verif.Props.AArch64Signal
import Verif.Props.AArch64Tramp
import Verif.Props.Alpha
import Verif.Props.AlphaAsm
import Verif.Props.Arm
import Verif.Props.ArmAsm
import Verif.Props.ArmTramp
import Verif.Props.Core
import Verif.Props.Dl
import Verif.Props.DlFit
import Verif.Props.DlTile
import Verif.Props.Heap
import Verif.Props.I386
import Verif.Props.I386RawClosure
import Verif.Props.I386Tramp
import Verif.Props.LoongArch
import Verif.Props.LoongArchAsm
import Verif.Props.LoongArchInt
import Verif.Props.M68k
import Verif.Props.M68kTrip
import Verif.Props.Mach
import Verif.Props.Or1k
import Verif.Props.Ppc
import Verif.Props.PpcClosure
import Verif.Props.Raw
import Verif.Props.RiscV
import Verif.Props.RiscVAsm
import Verif.Props.RiscVInt
import Verif.Props.S390
import Verif.Props.Seg
import Verif.Props.Temp
import Verif.Props.Tramp
import Verif.Props.Tree
import Verif.Props.Win64
import Verif.Props.Win64Asm
import Verif.Props.X64
import Verif.Props.X64Asm

/-! Axioms of every claimed theorem (generated by tools/gen_manifest.py); expected:
only `propext`, `Classical.choice`, `Quot.sound`. -/

#print axioms Verif.Props.C01_align_up
#print axioms Verif.Props.C01_align_down
#print axioms Verif.Props.C02_layout
#print axioms Verif.Props.C02_history
#print axioms Verif.Props.C03_offsets
#print axioms Verif.Props.C04_bad_abi
#print axioms Verif.Props.C04_status
#print axioms Verif.Props.C05_repeat_partial
#print axioms Verif.Props.C05_rejection_not_stable
#print axioms Verif.Props.C06_variadic_partial
#print axioms Verif.Props.C06_fixed_args_free
#print axioms Verif.Props.C06_float_copy_accepted
#print axioms Verif.Props.C07_frame
#print axioms Verif.Props.C07_frame_var
#print axioms Verif.Props.C08_classification
#print axioms Verif.Props.C09_classes_bounded
#print axioms Verif.Props.C09_examine_total
#print axioms Verif.Props.C10_call_safe
#print axioms Verif.Props.C11_placement
#print axioms Verif.Props.C12_closure_args
#print axioms Verif.Props.C13_call_closure
#print axioms Verif.Props.C14_vector_count
#print axioms Verif.Props.C11_placement
#print axioms Verif.Props.C15_fetch_partial
#print axioms Verif.Props.C15_leave_partial
#print axioms Verif.Props.C15_struct_long_double
#print axioms Verif.Props.C16_result_bytes
#print axioms Verif.Props.C16_null
#print axioms Verif.Props.C17_result_round_trip
#print axioms Verif.Props.C18_memory_result
#print axioms Verif.Props.C19_avalue_partial
#print axioms Verif.Props.C19_overwritten
#print axioms Verif.Props.C20_dynamic_trampoline
#print axioms Verif.Props.C21_static_trampoline
#print axioms Verif.Props.C21_blocks_disjoint
#print axioms Verif.Props.C22_call
#print axioms Verif.Props.C22_null_result
#print axioms Verif.Props.C22_closure
#print axioms Verif.Props.C22_round_trip
#print axioms Verif.Props.C23_isolated_partial
#print axioms Verif.Props.C23_shared
#print axioms Verif.Props.C24_result
#print axioms Verif.Props.C24_null
#print axioms Verif.Props.C24_closure
#print axioms Verif.Props.C24_round_trip
#print axioms Verif.Props.C25_encode
#print axioms Verif.Props.C25_decode_partial
#print axioms Verif.Props.C25_overrun
#print axioms Verif.Props.C26_round_trip_partial
#print axioms Verif.Props.C26_x32
#print axioms Verif.Props.C27_raw_partial
#print axioms Verif.Props.C27_java_partial
#print axioms Verif.Props.C27_static
#print axioms Verif.Props.C28_arguments
#print axioms Verif.Props.C28_size_total
#print axioms Verif.Props.C28_narrow_result
#print axioms Verif.Props.C28_other_result_partial
#print axioms Verif.Props.C28_pointer_result
#print axioms Verif.Props.C28_long_double_overrun
#print axioms Verif.Props.C29_exclusive
#print axioms Verif.Props.C29_fresh
#print axioms Verif.Props.C29_stable
#print axioms Verif.Props.C30_no_fault
#print axioms Verif.Props.C30_mapped
#print axioms Verif.Props.C30_others
#print axioms Verif.Props.C31_bound
#print axioms Verif.Props.C31_no_leak
#print axioms Verif.Props.C32_failure
#print axioms Verif.Props.C32_free_slot
#print axioms Verif.Props.C33_parms
#print axioms Verif.Props.C33_frame
#print axioms Verif.Props.C33_jump
#print axioms Verif.Props.C34_serial_partial
#print axioms Verif.Props.C34_race
#print axioms Verif.Props.C35_search
#print axioms Verif.Props.C35_map_partial
#print axioms Verif.Props.C35_loops
#print axioms Verif.Props.C35_full
#print axioms Verif.Props.C35_half_read
#print axioms Verif.Props.C36_views_partial
#print axioms Verif.Props.C36_storage_partial
#print axioms Verif.Props.C36_no_abort_partial
#print axioms Verif.Props.C36_half
#print axioms Verif.Props.C37_exclusive
#print axioms Verif.Props.C37_alloc
#print axioms Verif.Props.C37_calloc
#print axioms Verif.Props.C37_free_partial
#print axioms Verif.Props.C37_one_table
#print axioms Verif.Props.C37_use_after_free
#print axioms Verif.Props.C38_hfa
#print axioms Verif.Props.C38_empty_members_fault
#print axioms Verif.Props.C39_closure_partial
#print axioms Verif.Props.C39_call_closure_partial
#print axioms Verif.Props.C39_reference_slot
#print axioms Verif.Props.C39_apple_reference_slot
#print axioms Verif.Props.C39_win64_variadic
#print axioms Verif.Props.C39_win64_spill
#print axioms Verif.Props.C40_area_partial
#print axioms Verif.Props.C40_reserved_values
#print axioms Verif.Props.C40_reserved_references_partial
#print axioms Verif.Props.C40_overlap
#print axioms Verif.Props.C40_overlap_aligned
#print axioms Verif.Props.C41_call
#print axioms Verif.Props.C41_null
#print axioms Verif.Props.C41_closure
#print axioms Verif.Props.C41_memory
#print axioms Verif.Props.C41_roundtrip
#print axioms Verif.Props.C42_arguments_partial
#print axioms Verif.Props.C42_arguments_soft
#print axioms Verif.Props.C42_lost
#print axioms Verif.Props.C43_slots
#print axioms Verif.Props.C43_stores_partial
#print axioms Verif.Props.C43_stores_soft
#print axioms Verif.Props.C43_overrun
#print axioms Verif.Props.C44_widened_partial
#print axioms Verif.Props.C44_widened_rv32
#print axioms Verif.Props.C44_roundtrip_partial
#print axioms Verif.Props.C44_uint32_sign_extended
#print axioms Verif.Props.C45_roundtrip_partial
#print axioms Verif.Props.C45_closure_partial
#print axioms Verif.Props.C45_register_swapped
#print axioms Verif.Props.C45_register_lost
#print axioms Verif.Props.C45_pascal_lost
#print axioms Verif.Props.C45_small_complex_aborts
#print axioms Verif.Props.C45_pcc_handler
#print axioms Verif.Props.C46_pop_exact_partial
#print axioms Verif.Props.C46_stdcall_win32
#print axioms Verif.Props.C46_go_never_pops
#print axioms Verif.Props.C46_fastcall_wrong
#print axioms Verif.Props.C46_padding_wrong
#print axioms Verif.Props.C46_pascal_wrong
#print axioms Verif.Props.C47_raw_partial
#print axioms Verif.Props.C47_fastcall_wrong
#print axioms Verif.Props.C47_overread
#print axioms Verif.Props.C47_below_block
#print axioms Verif.Props.C47_pascal_wrong
#print axioms Verif.Props.C48_bytes_partial
#print axioms Verif.Props.C48_reserved_partial
#print axioms Verif.Props.C48_bytes_wrap
#print axioms Verif.Props.C49_one_table_partial
#print axioms Verif.Props.C49_leak
#print axioms Verif.Props.C50_backed_partial
#print axioms Verif.Props.C50_hole
#print axioms Verif.Props.C51_args_partial
#print axioms Verif.Props.C51_args_values
#print axioms Verif.Props.C52_args_partial
#print axioms Verif.Props.C52_args_soft
#print axioms Verif.Props.C52_misaligned
#print axioms Verif.Props.C53_call
#print axioms Verif.Props.C53_memory
#print axioms Verif.Props.C53_closure
#print axioms Verif.Props.C53_roundtrip
#print axioms Verif.Props.C53_void_stores
#print axioms Verif.Props.C54_placement_partial
#print axioms Verif.Props.C54_reversed_partial
#print axioms Verif.Props.C54_pascal_gap
#print axioms Verif.Props.C54_pascal_hidden_lost
#print axioms Verif.Props.C55_call
#print axioms Verif.Props.C55_other_partial
#print axioms Verif.Props.C55_closure_partial
#print axioms Verif.Props.C55_roundtrip_partial
#print axioms Verif.Props.C45_register_swapped
#print axioms Verif.Props.C54_pascal_hidden_lost
#print axioms Verif.Props.C56_dynamic
#print axioms Verif.Props.C56_entry
#print axioms Verif.Props.C56_static
#print axioms Verif.Props.C56_blocks_disjoint
#print axioms Verif.Props.C56_raw
#print axioms Verif.Props.C56_raw_static
#print axioms Verif.Props.C57_arguments_partial
#print axioms Verif.Props.C57_result_partial
#print axioms Verif.Props.C57_pop_sysv
#print axioms Verif.Props.C57_pop_thiscall
#print axioms Verif.Props.C57_thiscall_order
#print axioms Verif.Props.C57_memory_result
#print axioms Verif.Props.C58_dynamic
#print axioms Verif.Props.C58_dynamic_footprint
#print axioms Verif.Props.C58_static
#print axioms Verif.Props.C58_blocks_disjoint
#print axioms Verif.Props.C58_mach
#print axioms Verif.Props.C59_dynamic
#print axioms Verif.Props.C59_accepts
#print axioms Verif.Props.C59_go
#print axioms Verif.Props.C60_closure
#print axioms Verif.Props.C60_closure_refines
#print axioms Verif.Props.C60_call_enter
#print axioms Verif.Props.C60_call_partial
#print axioms Verif.Props.C60_call_sp
#print axioms Verif.Props.C60_call_refines
#print axioms Verif.Props.C61_call_enter
#print axioms Verif.Props.C61_call
#print axioms Verif.Props.C61_call_refines
#print axioms Verif.Props.C61_closure_enter
#print axioms Verif.Props.C61_closure
#print axioms Verif.Props.C61_closure_refines
#print axioms Verif.Props.C61_go_enter
#print axioms Verif.Props.C61_go_partial
#print axioms Verif.Props.C61_go_unsigned
#print axioms Verif.Props.C62_call_enter_partial
#print axioms Verif.Props.C62_call_exit
#print axioms Verif.Props.C62_closure_enter
#print axioms Verif.Props.C62_go_enter
#print axioms Verif.Props.C62_closure_exit
#print axioms Verif.Props.C62_call_clobbered
#print axioms Verif.Props.C62_call_unsafe
#print axioms Verif.Props.C63_call_enter
#print axioms Verif.Props.C63_call_return
#print axioms Verif.Props.C63_closure_enter
#print axioms Verif.Props.C63_closure_return
#print axioms Verif.Props.C63_alt_enter
#print axioms Verif.Props.C64_call_enter_partial
#print axioms Verif.Props.C64_call_return_partial
#print axioms Verif.Props.C64_call_inside_partial
#print axioms Verif.Props.C64_closure_enter_partial
#print axioms Verif.Props.C64_closure_return_partial
#print axioms Verif.Props.C64_closure_inside_partial
#print axioms Verif.Props.C64_alt
#print axioms Verif.Props.C65_call
#print axioms Verif.Props.C65_call_return
#print axioms Verif.Props.C65_closure
#print axioms Verif.Props.C65_closure_return
#print axioms Verif.Props.C63_alt_enter
#print axioms Verif.Props.C65_entries
#print axioms Verif.Props.C66_vfp_type_p
#print axioms Verif.Props.C66_layout
#print axioms Verif.Props.C66_lowest
#print axioms Verif.Props.C67_arguments_partial
#print axioms Verif.Props.C67_conforms_partial
#print axioms Verif.Props.C67_soft
#print axioms Verif.Props.C67_core_left_open
#print axioms Verif.Props.arm_conforms_soft
#print axioms Verif.Props.arm_conforms_regs
#print axioms Verif.Props.arm_conforms_words
#print axioms Verif.Props.C68_stores_partial
#print axioms Verif.Props.C68_overflow
#print axioms Verif.Props.C69_arguments_partial
#print axioms Verif.Props.C69_conforms_partial
#print axioms Verif.Props.C69_round_trip
#print axioms Verif.Props.C69_core_left_open
#print axioms Verif.Props.C70_call_partial
#print axioms Verif.Props.C70_call_null
#print axioms Verif.Props.C70_closure
#print axioms Verif.Props.C70_temporary_misaligned
#print axioms Verif.Props.C70_complex_char
#print axioms Verif.Props.C71_machdep
#print axioms Verif.Props.C71_layout_iff
#print axioms Verif.Props.C71_success
#print axioms Verif.Props.C71_x64
#print axioms Verif.Props.C71_aarch64
#print axioms Verif.Props.C71_arm
#print axioms Verif.Props.C71_x86
#print axioms Verif.Props.C71_riscv
#print axioms Verif.Props.C72_args_partial
#print axioms Verif.Props.C72_args_soft
#print axioms Verif.Props.C72_room_direct
#print axioms Verif.Props.C72_room_registers
#print axioms Verif.Props.C72_room_exact
#print axioms Verif.Props.C72_lost_copy
#print axioms Verif.Props.C73_slots
#print axioms Verif.Props.C73_stores_partial
#print axioms Verif.Props.C73_below
#print axioms Verif.Props.C73_overlap
#print axioms Verif.Props.C73_above
#print axioms Verif.Props.C73_result_misaligned
#print axioms Verif.Props.C74_call_partial
#print axioms Verif.Props.C74_tail
#print axioms Verif.Props.C74_memory
#print axioms Verif.Props.C74_widened_partial
#print axioms Verif.Props.C74_closure
#print axioms Verif.Props.C74_roundtrip
#print axioms Verif.Props.C74_beyond
#print axioms Verif.Props.C74_void_stores
#print axioms Verif.Props.C74_uint32_sign_extended
#print axioms Verif.Props.C75_arguments_partial
#print axioms Verif.Props.C75_standard_partial
#print axioms Verif.Props.C75_lost
#print axioms Verif.Props.dl_malloc
#print axioms Verif.Props.dl_free
#print axioms Verif.Props.dl_refused
#print axioms Verif.Props.dl_blocks
#print axioms Verif.Props.dl_unmapped
#print axioms Verif.Props.dl_free
#print axioms Verif.Props.dl_tiled
#print axioms Verif.Props.dl_all_freed
#print axioms Verif.Props.dl_fit
#print axioms Verif.Props.dl_top
#print axioms Verif.Props.dl_system_last
#print axioms Verif.Props.dl_refused_nofit
#print axioms Verif.Props.heap_chunks
#print axioms Verif.Props.heap_closures
#print axioms Verif.Props.heap_alloc
#print axioms Verif.Props.heap_free
#print axioms Verif.Props.s390_call_partial
#print axioms Verif.Props.s390_bytes_wrap
#print axioms Verif.Props.s390_closure_partial
#print axioms Verif.Props.s390_go_closure_partial
#print axioms Verif.Props.s390_closure_r6
#print axioms Verif.Props.s390_trampoline
#print axioms Verif.Props.s390_static_trampoline
#print axioms Verif.Props.s390_round_trip_partial
#print axioms Verif.Props.ppc_call_partial
#print axioms Verif.Props.ppc_bytes_wrap
#print axioms Verif.Props.ppc_null_C86
#print axioms Verif.Props.ppc_closure_partial
#print axioms Verif.Props.ppc_go_closure_partial
#print axioms Verif.Props.ppc_closure_ibm_C87
#print axioms Verif.Props.ppc_closure_alias_C87
#print axioms Verif.Props.ppc_closure_area_C87
#print axioms Verif.Props.ppc_trampoline
#print axioms Verif.Props.ppc_static_trampoline
#print axioms Verif.Props.ppc_round_trip_partial
#print axioms Verif.Props.C90_call_enter
#print axioms Verif.Props.C90_call_return
#print axioms Verif.Props.C90_call_result
#print axioms Verif.Props.C90_closure_enter
#print axioms Verif.Props.C90_alt_enter
#print axioms Verif.Props.C90_trampoline
#print axioms Verif.Props.C90_closure_return
#print axioms Verif.Props.C90_closure_result
#print axioms Verif.Props.C90_round_trip
#print axioms Verif.Props.C91_call_enter_partial
#print axioms Verif.Props.C91_call_return_partial
#print axioms Verif.Props.C91_call_inside_partial
#print axioms Verif.Props.C91_closure_enter_partial
#print axioms Verif.Props.C91_closure_return_partial
#print axioms Verif.Props.C91_closure_inside_partial
#print axioms Verif.Props.C91_alt
#print axioms Verif.Props.C92_call
#print axioms Verif.Props.C92_call_return
#print axioms Verif.Props.C92_closure
#print axioms Verif.Props.C92_closure_return
#print axioms Verif.Props.C90_alt_enter
#print axioms Verif.Props.C92_entries
#print axioms Verif.Props.C93_dynamic
#print axioms Verif.Props.C93_static
#print axioms Verif.Props.C93_accepts
#print axioms Verif.Props.C93_go
#print axioms Verif.Props.C94_closure
#print axioms Verif.Props.C94_closure_refines
#print axioms Verif.Props.C94_call_enter
#print axioms Verif.Props.C94_call_partial
#print axioms Verif.Props.C94_call_sp
#print axioms Verif.Props.C94_call_refines
#print axioms Verif.Props.C95_call_enter
#print axioms Verif.Props.C95_call_return
#print axioms Verif.Props.C95_closure_enter
#print axioms Verif.Props.C95_closure_return
#print axioms Verif.Props.C95_la_call_enter
#print axioms Verif.Props.C95_la_call_return
#print axioms Verif.Props.C95_la_closure_enter
#print axioms Verif.Props.C95_la_closure_return
#print axioms Verif.Props.C96_call_in
#print axioms Verif.Props.C96_call_inside
#print axioms Verif.Props.C96_call_out
#print axioms Verif.Props.C96_closure_in
#print axioms Verif.Props.C96_closure_inside
#print axioms Verif.Props.C96_closure_out
#print axioms Verif.Props.C96_code
#print axioms Verif.Props.C96_la_call_in
#print axioms Verif.Props.C96_la_call_inside
#print axioms Verif.Props.C96_la_call_out
#print axioms Verif.Props.C96_la_closure_in
#print axioms Verif.Props.C96_la_closure_inside
#print axioms Verif.Props.C96_la_closure_out
#print axioms Verif.Props.C96_la_code
#print axioms Verif.Props.C97_call_enter
#print axioms Verif.Props.C97_call_return_partial
#print axioms Verif.Props.C97_closure_enter
#print axioms Verif.Props.C97_closure_return
#print axioms Verif.Props.C98_call_enter_partial
#print axioms Verif.Props.C98_call_return_partial
#print axioms Verif.Props.C98_call_inside_partial
#print axioms Verif.Props.C98_call_ehabi_partial
#print axioms Verif.Props.C98_closure_enter_partial
#print axioms Verif.Props.C98_closure_return
#print axioms Verif.Props.C98_closure_inside
#print axioms Verif.Props.C98_alt_missing
#print axioms Verif.Props.C99_abi
#print axioms Verif.Props.C99_dynamic
#print axioms Verif.Props.C99_dynamic_inner
#print axioms Verif.Props.C99_go
#print axioms Verif.Props.C99_static
#print axioms Verif.Props.C99_static_inner
#print axioms Verif.Props.C100_call_partial
#print axioms Verif.Props.C100_bytes_wrap
#print axioms Verif.Props.C100_shared
#print axioms Verif.Props.C101_closure
#print axioms Verif.Props.C101_go_closure
#print axioms Verif.Props.C102_trampoline
#print axioms Verif.Props.C102_round_trip_partial
#print axioms Verif.Props.C102_go_round_trip_partial
#print axioms Verif.Props.C103_call_enter_partial
#print axioms Verif.Props.C103_call_return_partial
#print axioms Verif.Props.C103_closure_enter
#print axioms Verif.Props.C103_go_enter
#print axioms Verif.Props.C103_closure_return
#print axioms Verif.Props.C104_call_enter_partial
#print axioms Verif.Props.C104_call_inside_partial
#print axioms Verif.Props.C104_call_return_partial
#print axioms Verif.Props.C104_closure_enter
#print axioms Verif.Props.C104_closure_inside
#print axioms Verif.Props.C104_closure_return
#print axioms Verif.Props.C104_cfa_moves
#print axioms Verif.Props.C105_call_enter_partial
#print axioms Verif.Props.C105_call_return_partial
#print axioms Verif.Props.C105_copies
#print axioms Verif.Props.C105_void_return
#print axioms Verif.Props.C105_r20_lost
#print axioms Verif.Props.C105_void_written
#print axioms Verif.Props.C105_avalue_changed
#print axioms Verif.Props.C106_args
#print axioms Verif.Props.C106_result
#print axioms Verif.Props.C107_trampoline
#print axioms Verif.Props.C108_call_enter
#print axioms Verif.Props.C108_call_return_partial
#print axioms Verif.Props.C108_unsigned
#print axioms Verif.Props.C108_ldouble
#print axioms Verif.Props.C108_null_struct
#print axioms Verif.Props.C109_closure
#print axioms Verif.Props.C109_struct
#print axioms Verif.Props.C110_trampoline
#print axioms Verif.Props.C111_round_trip_partial
#print axioms Verif.Props.C111_round_trip_struct

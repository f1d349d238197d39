{"id": "C01", "title": "Alignment rounding is exact", "statement": "The alignment rounding used everywhere for layout and stack reservation returns the least multiple of the alignment that is not below the value (round up) or the greatest multiple not above it (round down), in 64-bit machine arithmetic, including the boundary cases 0 and exact multiples.", "quantifier": "every value v, every power-of-two alignment a with v + a < 2^64", "why_tests_cant": "2^64 values times 64 alignments; every layout and every stack offset in the library depends on it.", "anchors": ["include/ffi_common.h: FFI_ALIGN, FFI_ALIGN_DOWN"]}
{"id": "C02", "title": "Struct layout filled in by prep is the C layout", "statement": "After a successful ffi_prep_cif / ffi_get_struct_offsets every aggregate type reachable from the signature has the size and alignment a C compiler would give it: alignment is the maximum of the members' alignments, members are placed in order at the least admissible aligned offset, and the size is the end of the last member rounded up to the alignment; this holds at every nesting depth and also when type objects are shared between several aggregates.", "quantifier": "every acyclic heap of type descriptors, any nesting depth, any sharing", "why_tests_cant": "Infinitely many type graphs; sharing and partially initialised graphs depend on the history of earlier prep calls.", "anchors": ["src/prep_cif.c: initialize_aggregate, ffi_prep_cif_core"]}
{"id": "C03", "title": "Reported struct offsets are valid and disjoint", "statement": "ffi_get_struct_offsets on success reports one offset per member; each is aligned for its member, members lie in order without overlap, all inside the reported struct size, and padding between neighbours is less than the alignment of the next member (offsets are minimal).", "quantifier": "every struct type, any number and kind of members", "why_tests_cant": "Unbounded number of members and nestings.", "anchors": ["src/prep_cif.c: ffi_get_struct_offsets, initialize_aggregate"]}
{"id": "C04", "title": "Prep status codes characterise the input", "statement": "ffi_prep_cif returns FFI_BAD_ABI exactly when the ABI number is outside the supported open range (and then touches neither the cif nor any type); otherwise returns FFI_BAD_TYPEDEF from the generic stage exactly when the return type or some argument type with unset size cannot be laid out (no element list, or no non-empty member); otherwise the machine-dependent status is returned.", "quantifier": "every abi number, every signature, every type heap without cycles", "why_tests_cant": "Must hold for all type graphs and for every mix of initialised/uninitialised descriptors.", "anchors": ["src/prep_cif.c: ffi_prep_cif_core, initialize_aggregate"]}
{"id": "C05", "title": "Preparing the same signature again is stable", "statement": "Calling ffi_prep_cif again on the same arguments returns the same status and the same cif, and leaves all type descriptors as the first call left them; a rejected type stays rejected.", "quantifier": "every heap of type descriptors and every signature; every history of previous prep calls", "why_tests_cant": "A property of histories: needs all possible states left behind by earlier, possibly failing, calls.", "anchors": ["src/prep_cif.c: initialize_aggregate, ffi_prep_cif_core"]}
{"id": "C06", "title": "Variadic prep enforces default argument promotion", "statement": "ffi_prep_cif_var succeeds only if no variadic argument is a float or a non-aggregate narrower than int, returns FFI_BAD_ARGTYPE exactly when generic preparation succeeds and such an argument exists, and never complains about fixed arguments.", "quantifier": "every number of fixed and variadic arguments and every argument type", "why_tests_cant": "Unbounded argument lists.", "anchors": ["src/prep_cif.c: ffi_prep_cif_var"]}
{"id": "C07", "title": "Prep only changes unset aggregate descriptors reachable from the signature", "statement": "ffi_prep_cif changes no type descriptor except aggregates with unset size reachable from the signature, and never changes type codes or element lists.", "quantifier": "every heap, every signature", "why_tests_cant": "Frame property over all descriptors in memory, including ones not mentioned in the call.", "anchors": ["src/prep_cif.c: initialize_aggregate"]}
{"id": "C08", "title": "x86-64: argument classification is the psABI classification", "statement": "For every well-formed argument type the register class computed for each eightbyte agrees with the System V psABI classification computed independently from the flat list of scalar members and their offsets; a type is passed in memory exactly when the psABI says MEMORY.", "quantifier": "every well-formed type, any nesting, any number of members", "why_tests_cant": "Unbounded nesting; the implementation is a recursive merge, the ABI is stated on flattened objects.", "anchors": ["src/x86/ffi64.c: classify_argument, merge_classes, examine_argument"]}
{"id": "C09", "title": "x86-64: classification never overruns its class array", "statement": "Classifying a well-formed type never writes more than four classes and never reaches the abort path, so preparing or performing a call cannot corrupt the stack.", "quantifier": "every well-formed type, any nesting", "why_tests_cant": "Memory safety over an unbounded family of nested types.", "anchors": ["src/x86/ffi64.c: classify_argument (classes[MAX_CLASSES])"]}
{"id": "C10", "title": "x86-64: ffi_call reads and writes only what it may", "statement": "While marshalling, ffi_call reads only bytes inside the argument objects and writes only inside the argument area it reserved (six general and eight vector register slots plus cif->bytes of stack).", "quantifier": "every signature of well-formed types (alignment at most 16), every argument value", "why_tests_cant": "Requires relating the reservation computed at prep time to the writes at call time for all signatures.", "anchors": ["src/x86/ffi64.c: ffi_prep_cif_machdep, ffi_call_int"]}
{"id": "C11", "title": "x86-64: ffi_call places every argument where the psABI says", "statement": "At the moment the target function is entered every argument occupies exactly the registers/stack slots the psABI assigns to it, holds the caller's bytes, signed integers narrower than 64 bit are sign-extended and other small integers zero-extended.", "quantifier": "every signature of well-formed types, all argument values, any number of arguments", "why_tests_cant": "Unbounded number of arguments and value combinations; register exhaustion can happen at any position.", "anchors": ["src/x86/ffi64.c: ffi_call_int", "src/x86/unix64.S: ffi_call_unix64"]}
{"id": "C12", "title": "x86-64: closures see the arguments the caller passed", "statement": "If a caller following the psABI passes arguments to a closure, the handler is invoked with one pointer per argument, each pointing at bytes equal to the argument.", "quantifier": "every signature of well-formed types, every register and stack content", "why_tests_cant": "Unbounded signatures; the closure must re-derive the caller's allocation decisions.", "anchors": ["src/x86/ffi64.c: ffi_closure_unix64_inner", "src/x86/unix64.S: ffi_closure_unix64"]}
{"id": "C13", "title": "x86-64: ffi_call into a closure is the identity on arguments", "statement": "Calling a closure's code address through ffi_call with the same cif delivers to the handler argument objects with the caller's exact bytes.", "quantifier": "every signature of well-formed types and all values", "why_tests_cant": "End-to-end round trip over all signatures.", "anchors": ["src/x86/ffi64.c: ffi_call_int, ffi_closure_unix64_inner"]}
{"id": "C14", "title": "x86-64: vector-register count announced to variadic callees is right", "statement": "On entry to the target %al equals the number of vector registers carrying arguments (hence is a valid upper bound, at most 8), and when any vector register is used all of them are loaded before the call.", "quantifier": "every signature", "why_tests_cant": "Depends on the whole argument list.", "anchors": ["src/x86/ffi64.c: ffi_call_int, ffi_prep_cif_machdep", "src/x86/unix64.S: ffi_call_unix64"]}
{"id": "C15", "title": "x86-64: return values are fetched from where the psABI puts them", "statement": "For every return type ffi_call takes the result from the registers/memory that the psABI prescribes, and a closure leaves it there.", "quantifier": "every well-formed return type, all register contents", "why_tests_cant": "Unbounded family of struct return types.", "anchors": ["src/x86/ffi64.c: ffi_prep_cif_machdep", "src/x86/unix64.S: ffi_call_unix64, ffi_closure_unix64"]}
{"id": "C16", "title": "x86-64: ffi_call writes exactly the promised result bytes", "statement": "ffi_call stores max(size of return type, size of ffi_arg) bytes or fewer at rvalue: integral results narrower than ffi_arg are widened to a full ffi_arg with the right sign/zero extension; other results are stored with their exact size and nothing after them is touched; with rvalue NULL nothing is stored.", "quantifier": "every return type, every register content", "why_tests_cant": "All register contents times all struct return types.", "anchors": ["src/x86/unix64.S: ffi_call_unix64 store_table", "doc/libffi.texi"]}
{"id": "C17", "title": "x86-64: closure results come back through ffi_call", "statement": "The value a closure handler stores into its return buffer (ffi_arg-widened for small integers) is exactly the value ffi_call delivers to its caller.", "quantifier": "every supported return type, every handler result", "why_tests_cant": "Round trip across two assembly jump tables for all values.", "anchors": ["src/x86/unix64.S: store_table, load_table"]}
{"id": "C18", "title": "x86-64: large struct results go through the caller's buffer", "statement": "When the psABI returns a struct in memory the target receives the caller's rvalue pointer (or a library-provided buffer if NULL) in the first integer register, user arguments start at the second, and a closure returns that same pointer in %rax.", "quantifier": "every signature with a memory-class return type", "why_tests_cant": "Shifts the allocation of all arguments of arbitrary signatures.", "anchors": ["src/x86/ffi64.c: ffi_prep_cif_machdep, ffi_call_int, ffi_closure_unix64_inner"]}
{"id": "C19", "title": "ffi_call leaves the caller's argument vector intact", "statement": "After ffi_call returns, the avalues array still holds the pointers the caller put there (so it can be reused for a later call).", "quantifier": "every signature, every argument vector, every sequence of calls", "why_tests_cant": "Effect across calls on caller memory.", "anchors": ["src/x86/ffi64.c: ffi_call", "src/x86/ffiw64.c: ffi_call_int", "doc/libffi.texi"]}
{"id": "C20", "title": "x86-64: the dynamic trampoline enters the closure handler with its own closure", "statement": "Executing the code bytes written by ffi_prep_closure_loc at the code address transfers control to the closure entry point with the closure's code address in %r10, for any placement in memory.", "quantifier": "every code address and every entry point address", "why_tests_cant": "All 2^64 addresses; PC-relative arithmetic.", "anchors": ["src/x86/ffi64.c: ffi_prep_closure_loc, trampoline"]}
{"id": "C21", "title": "Static trampolines reach their own parameter block", "statement": "Every slot of the static trampoline code table, when executed after being mapped next to its parameter table, loads the data and code pointers of the parameter block with the same index, and no two slots share a parameter block.", "quantifier": "every slot index, every mapping address, both CET and non-CET layouts", "why_tests_cant": "PC-relative displacement arithmetic over every slot and every map address.", "anchors": ["src/x86/unix64.S: trampoline_code_table", "src/x86/internal64.h", "src/tramp.c: tramp_table_alloc"]}
{"id": "C22", "title": "Win64: arguments survive call into closure", "statement": "With the Windows x64 convention every argument marshalled by ffi_call is found with the same bytes by a closure with the same signature, including structs passed by reference.", "quantifier": "every signature of well-formed types, all values", "why_tests_cant": "Unbounded signatures.", "anchors": ["src/x86/ffiw64.c: ffi_call_int, ffi_closure_win64_inner"]}
{"id": "C23", "title": "Win64: by-value aggregates are isolated from the caller", "statement": "A callee that modifies an argument received by value never changes the caller's object.", "quantifier": "every signature, every callee behaviour", "why_tests_cant": "Needs aliasing information between caller and callee objects for all types.", "anchors": ["src/x86/ffiw64.c: ffi_call_int", "src/x86/ffi64.c: ffi_call"]}
{"id": "C24", "title": "Win64: result widening and size", "statement": "Win64 ffi_call stores integral results widened to ffi_arg, small structs with exactly their size, and large structs through the hidden pointer.", "quantifier": "every return type, every register content", "why_tests_cant": "All register contents and struct sizes.", "anchors": ["src/x86/ffiw64.c: ffi_prep_cif_machdep", "src/x86/win64.S: ffi_call_win64"]}
{"id": "C25", "title": "Raw API: size query equals space used", "statement": "ffi_raw_size is at least the number of bytes ffi_ptrarray_to_raw writes and at least the number ffi_raw_to_ptrarray walks over, for every signature, so a buffer of that size is never overrun.", "quantifier": "every signature, little and big endian, any pointer/argument width", "why_tests_cant": "Unbounded signatures.", "anchors": ["src/raw_api.c: ffi_raw_size, ffi_ptrarray_to_raw, ffi_raw_to_ptrarray"]}
{"id": "C26", "title": "Raw API: conversion round trip", "statement": "Converting an argument vector to raw form and back yields pointers to objects with the original bytes, for every signature.", "quantifier": "every signature and value, little and big endian", "why_tests_cant": "Unbounded signatures and values.", "anchors": ["src/raw_api.c: ffi_ptrarray_to_raw, ffi_raw_to_ptrarray"]}
{"id": "C27", "title": "Raw closures call back with the user's function and data", "statement": "Invoking the code address of a raw closure calls the function given at preparation with the user data given at preparation, whatever trampoline kind is in use.", "quantifier": "every memory placement, static or dynamic trampolines", "why_tests_cant": "Depends on the memory placement of code and data aliases of a closure.", "anchors": ["src/raw_api.c: ffi_prep_raw_closure_loc, ffi_translate_args", "src/tramp.c: ffi_tramp_set_parms"]}
{"id": "C28", "title": "Java raw API: size and conversion round trip", "statement": "The Java raw API's size query equals the space its conversions use, and conversion to raw and back preserves every argument value, for every signature of supported types.", "quantifier": "every signature and value", "why_tests_cant": "Unbounded signatures.", "anchors": ["src/java_raw_api.c: ffi_java_raw_size, ffi_java_ptrarray_to_raw, ffi_java_raw_to_ptrarray, ffi_java_rvalue_to_raw, ffi_java_raw_to_rvalue"]}
{"id": "C29", "title": "Trampoline handles are exclusive", "statement": "At every moment each live static trampoline (allocated and not yet freed) has an address and parameter block different from every other live one, whatever allocations, frees and failures happened before.", "quantifier": "every history of alloc/free operations, every failure of the underlying allocator, any number of threads", "why_tests_cant": "Histories are unbounded and include allocator failures at arbitrary points and thread interleavings.", "anchors": ["src/tramp.c: ffi_tramp_alloc, ffi_tramp_free, tramp_table_alloc, tramp_add, tramp_del"]}
{"id": "C30", "title": "Live trampolines stay mapped", "statement": "No table containing a live trampoline is ever unmapped or freed, no operation touches freed memory, and each table is unmapped at most once.", "quantifier": "every history of alloc/free operations and allocator failures", "why_tests_cant": "Use-after-free freedom over all histories.", "anchors": ["src/tramp.c: tramp_table_free, tramp_add, tramp_table_del"]}
{"id": "C31", "title": "Trampoline memory is returned", "statement": "After every history at most one table has no live trampoline, so memory held is bounded by live tables plus one; freeing everything leaves at most one table.", "quantifier": "every history", "why_tests_cant": "Bound over all histories.", "anchors": ["src/tramp.c: tramp_add"]}
{"id": "C32", "title": "Trampoline allocation failure is clean", "statement": "ffi_tramp_alloc returns NULL only if the platform cannot supply a table; a failed allocation leaks nothing and leaves live trampolines and the free list unchanged; when a free slot exists allocation succeeds without calling the platform.", "quantifier": "every history, every failure point", "why_tests_cant": "Failure injection at every point of every history.", "anchors": ["src/tramp.c: tramp_table_alloc, ffi_tramp_alloc"]}
{"id": "C33", "title": "Setting parameters of one trampoline does not disturb others", "statement": "ffi_tramp_set_parms on a live trampoline changes the data/code pair only for that trampoline; every other live trampoline keeps the pair it was given last.", "quantifier": "every history of alloc/free/set_parms", "why_tests_cant": "Non-interference over histories.", "anchors": ["src/tramp.c: ffi_tramp_set_parms, ffi_tramp_get_addr"]}
{"id": "C34", "title": "Closure allocation pairs code and data correctly", "statement": "For every closure returned by ffi_closure_alloc, the code address given to the user is usable until ffi_closure_free, maps back to the same closure, and differs from the code address of every other live closure; freeing one closure does not affect others.", "quantifier": "every interleaving of allocations and frees by any number of threads", "why_tests_cant": "All schedules of concurrent alloc/free.", "anchors": ["src/closures.c: ffi_closure_alloc, ffi_closure_free, ffi_data_to_code_pointer"]}
{"id": "C35", "title": "Executable temp-file search terminates and tries every location", "statement": "The search for an executable temporary file location tries each configured location and terminates with a descriptor or -1, never looping forever.", "quantifier": "every environment (any pattern of failures of opens and mmaps)", "why_tests_cant": "All environment behaviours; termination.", "anchors": ["src/closures.c: open_temp_exec_file, open_temp_exec_file_opts_next, dlmmap_locked"]}
{"id": "C36", "title": "Dual mapping keeps writable and executable views in step", "statement": "When closures use a double mapping, both views map the same file range and the recorded distance translates every data address inside the segment to the code address of the same byte.", "quantifier": "every segment size, every mapping address, every file growth history", "why_tests_cant": "Histories of segment creation with failures.", "anchors": ["src/closures.c: dlmmap_locked, segment_holding, add_segment_exec_offset"]}
{"id": "C37", "title": "Mach trampoline tables: list integrity", "statement": "Allocating and freeing closures through Mach trampoline tables never uses a freed table or hands out the same trampoline twice.", "quantifier": "every history of alloc/free", "why_tests_cant": "Unbounded histories over a linked structure.", "anchors": ["src/closures.c: ffi_trampoline_table_alloc, ffi_closure_alloc, ffi_closure_free (Mach)"]}
{"id": "C38", "title": "AArch64: HFA recognition is the AAPCS64 definition", "statement": "A type is treated as a homogeneous floating-point aggregate with n members of kind k exactly when its flattening consists of n (1..4) scalars all of the same floating-point kind and it has no padding.", "quantifier": "every well-formed type, any nesting", "why_tests_cant": "Unbounded nesting.", "anchors": ["src/aarch64/ffi.c: is_vfp_type, is_hfa0, is_hfa1"]}
{"id": "C39", "title": "AArch64: arguments survive call into closure", "statement": "Every argument marshalled by ffi_call is found with the same bytes by a closure with the same signature.", "quantifier": "every signature of well-formed types, all values", "why_tests_cant": "Unbounded signatures; register exhaustion at any position.", "anchors": ["src/aarch64/ffi.c: ffi_call_int, ffi_closure_SYSV_inner"]}
{"id": "C40", "title": "AArch64: marshalling stays inside the reserved area", "statement": "Stack arguments and the copies of large structs made by ffi_call lie inside the reserved area and never overlap.", "quantifier": "every signature, all values", "why_tests_cant": "Requires comparing prep-time reservation with call-time use for all signatures.", "anchors": ["src/aarch64/ffi.c: ffi_call_int, allocate_to_stack, allocate_and_copy_struct_to_stack", "src/prep_cif.c: ffi_prep_cif_core"]}
{"id": "C41", "title": "AArch64: results come back intact", "statement": "A value of any supported return type produced by a closure handler or an AAPCS64 callee is delivered by ffi_call with the right bytes and widening.", "quantifier": "every return type, all values", "why_tests_cant": "All values of an unbounded family of aggregate types.", "anchors": ["src/aarch64/ffi.c: ffi_prep_cif_machdep", "src/aarch64/sysv.S: ffi_call_SYSV, ffi_closure_SYSV"]}
{"id": "C42", "title": "RISC-V: arguments survive call into closure", "statement": "Every argument marshalled by ffi_call is found with the same bytes by a closure with the same signature.", "quantifier": "every signature of well-formed types, all values", "why_tests_cant": "Unbounded signatures.", "anchors": ["src/riscv/ffi.c: marshal, unmarshal, ffi_call_int, ffi_closure_inner"]}
{"id": "C43", "title": "RISC-V: marshalling stays inside the register image and reserved stack", "statement": "ffi_call never writes outside the float register image, integer register image and the stack area it reserved, and float register slots are never written past the eighth.", "quantifier": "every signature", "why_tests_cant": "Depends on all positions of register exhaustion.", "anchors": ["src/riscv/ffi.c: struct_passed_as_elements, marshal_atom, ffi_call_int"]}
{"id": "C44", "title": "RISC-V: integer results are widened by type", "statement": "Integral results narrower than ffi_arg are stored as a full ffi_arg, sign-extended for signed and zero-extended for unsigned types.", "quantifier": "every integral return type, every register content", "why_tests_cant": "All register contents.", "anchors": ["src/riscv/ffi.c: ffi_call_int, unmarshal"]}
{"id": "C45", "title": "i386: arguments survive call into closure", "statement": "For each supported i386 convention every argument marshalled by ffi_call is found with the same bytes by a closure of the same signature.", "quantifier": "every signature of well-formed types, each ABI, all values", "why_tests_cant": "Unbounded signatures.", "anchors": ["src/x86/ffi.c: ffi_call_int, ffi_closure_inner"]}
{"id": "C46", "title": "i386: callee-pop closures pop exactly the stack arguments", "statement": "A closure with a callee-pop convention (stdcall, thiscall, fastcall) removes exactly the bytes of arguments the caller placed on the stack.", "quantifier": "every signature", "why_tests_cant": "Any mixture of register and stack arguments.", "anchors": ["src/x86/ffi.c: ffi_closure_inner"]}
{"id": "C47", "title": "i386: native raw call passes the raw arguments", "statement": "ffi_raw_call delivers to the callee the same register and stack arguments as ffi_call would for the equivalent argument vector, reading only the raw buffer.", "quantifier": "every signature, each ABI", "why_tests_cant": "Unbounded signatures and register assignment.", "anchors": ["src/x86/ffi.c: ffi_raw_call"]}
{"id": "C48", "title": "Generic stack reservation is sufficient and does not wrap", "statement": "The argument-area size recorded in the cif by the generic stage is at least the sum of the aligned argument sizes and is not smaller because of 32-bit wrap-around, for every signature accepted.", "quantifier": "every signature", "why_tests_cant": "Unbounded argument counts and struct sizes; wrap-around only at extreme sizes.", "anchors": ["src/prep_cif.c: ffi_prep_cif_core"]}
{"id": "C49", "title": "Mach trampoline tables are given back", "statement": "When every closure has been freed, at most one trampoline table stays allocated.", "quantifier": "every history of alloc/free", "why_tests_cant": "Depends on the order of an unbounded number of allocations and frees.", "anchors": ["src/closures.c: ffi_closure_alloc, ffi_closure_free, ffi_trampoline_table_free (Mach)"]}
{"id": "C50", "title": "Every byte of a closure segment has file space", "statement": "Every byte of a segment that dlmalloc hands out for closures and that is mapped from the temporary file lies in a part of that file that allocate_space has written, so using it cannot raise SIGBUS for lack of disk space.", "quantifier": "every history of segment allocation, with any failures of write, mmap, ftruncate and munmap", "why_tests_cant": "Needs failures at particular points followed by further allocation, and a full disk at the right time.", "anchors": ["src/closures.c: allocate_space, dlmmap_locked"]}
{"id": "C51", "title": "AArch64: arguments are passed as AAPCS64 and Apple's variant prescribe", "statement": "When ffi_call enters the called function, the stack pointer is 16-byte aligned and every argument is in the registers or the stack slot that the procedure call standard (or Apple's variant of it) assigns, references point to aligned intact copies, and integers in registers are extended to 64 bits.", "quantifier": "every signature of well-formed types, every number of fixed arguments, all values", "why_tests_cant": "Unbounded signatures; register exhaustion and stack padding at any position.", "anchors": ["src/aarch64/ffi.c: ffi_call_int, allocate_to_stack", "src/aarch64/sysv.S: ffi_call_SYSV"]}
{"id": "C52", "title": "RISC-V: arguments are passed as the psABI prescribes", "statement": "When ffi_call enters the called function, the stack pointer is 16-byte aligned and every argument is in the registers or the stack slot that the RISC-V calling convention assigns, integers are widened and narrow reals NaN-boxed, and references point to intact copies aligned for their type.", "quantifier": "every signature of well-formed types, every number of named arguments, every register width, all values", "why_tests_cant": "Unbounded signatures; register exhaustion at any position, six ABIs.", "anchors": ["src/riscv/ffi.c: marshal, marshal_atom, struct_passed_as_elements, ffi_call_int", "src/riscv/sysv.S: ffi_call_asm"]}
{"id": "C53", "title": "RISC-V: results are transferred intact", "statement": "A result that the called function leaves where the convention assigns is stored at rvalue with all its members, a result stored by a closure's handler reaches its caller the same way, and nothing but the result object (or the ffi_arg there) is written; for void functions rvalue is ignored.", "quantifier": "every return type, all register contents", "why_tests_cant": "Unbounded set of struct types; side effects on memory next to the result.", "anchors": ["src/riscv/ffi.c: ffi_call_int, unmarshal, ffi_closure_inner", "src/riscv/sysv.S: ffi_call_asm, ffi_closure_asm"]}
{"id": "C54", "title": "i386: arguments are passed where the convention prescribes", "statement": "When ffi_call enters the called function every argument, widened if it is a small integer, is in the register or at the stack offset that the convention assigns, the address of a result in memory is where the convention wants it, and the stack is aligned.", "quantifier": "every signature of well-formed types, each of the seven conventions, every target (Linux, Windows, Darwin), all values", "why_tests_cant": "Unbounded signatures; register use, alignment and direction differ in every convention.", "anchors": ["src/x86/ffi.c: ffi_prep_cif_machdep, ffi_call_int, extend_basic_type", "src/x86/sysv.S: ffi_call_i386"]}
{"id": "C55", "title": "i386: results are transferred intact", "statement": "A result that the called function leaves where the convention assigns is stored at rvalue, integers widened to ffi_arg; a result stored by a closure's handler reaches its caller the same way; nothing else outside ffi_call's frame is written; with a null rvalue nothing is.", "quantifier": "every result type, each convention, all register contents", "why_tests_cant": "Side effects on memory next to the result; all struct types.", "anchors": ["src/x86/ffi.c: ffi_prep_cif_machdep, ffi_call_int, ffi_closure_inner", "src/x86/sysv.S: ffi_call_i386, ffi_closure_i386, ffi_closure_STDCALL"]}
{"id": "C56", "title": "i386: trampolines lead to their own closure", "statement": "Calling the code address of a prepared closure executes instructions that enter the entry point of the closure's convention with the closure's address where that entry point expects it (in %eax, or on the stack for FFI_REGISTER), with the stack pointer as the caller left it and no memory changed but words below it; the closure's description, function and data are found at that address. The same for raw closures. Both for code written into the closure and for the static trampoline table.", "quantifier": "every convention, every placement of closure, code mapping, table, entry point and stack that do not overlap, every slot of the table, with and without endbr32, all register and memory contents", "why_tests_cant": "Displacements wrap modulo 2^32 and depend on load addresses; one process sees one layout and few slots.", "anchors": ["src/x86/ffi.c: ffi_prep_closure_loc, ffi_prep_raw_closure_loc", "src/x86/sysv.S: trampoline_code_table, ffi_closure_*_alt", "src/x86/internal.h: X86_TRAMP_SIZE"]}
{"id": "C57", "title": "i386: native raw closures transfer arguments and results", "statement": "The handler of a raw closure finds every argument in the array of raw arguments, in order and widened, receives an address with room for the result, and what it stores there reaches the caller as the convention prescribes; the closure returns to its caller with %ebx restored and removes from the stack what the convention prescribes.", "quantifier": "every signature that ffi_prep_raw_closure_loc accepts, both conventions, all result types, all values", "why_tests_cant": "Unbounded signatures; a wrong stack pointer is often repaired by the caller's frame pointer.", "anchors": ["src/x86/ffi.c: ffi_prep_raw_closure_loc", "src/x86/sysv.S: ffi_closure_raw_SYSV, ffi_closure_raw_THISCALL"]}
{"id": "C58", "title": "AArch64: trampolines lead to their own closure", "statement": "Executing the code of a prepared closure, at whatever address it is mapped, enters the entry point of the closure's signature (with or without vector registers) with the closure's address in x17 and the data and function where the entry point looks for them, all other registers but x16, and all memory, unchanged; likewise for the static trampoline table with its data page, and for the Mach trampoline page. Blocks of different slots do not overlap.", "quantifier": "every address of closure, code mapping, table and entry point, every slot of the table, all register and memory contents", "why_tests_cant": "PC-relative displacements depend on load addresses and on the slot; one process sees one layout.", "anchors": ["src/aarch64/ffi.c: ffi_prep_closure_loc, ffi_tramp_arch", "src/aarch64/sysv.S: ffi_closure_SYSV_alt, ffi_closure_SYSV_V_alt, trampoline_code_table", "src/tramp.c: ffi_tramp_set_parms"]}
{"id": "C59", "title": "RISC-V: trampolines and Go closures lead to their own closure", "statement": "The code that ffi_prep_closure_loc writes, executed where the closure is mapped, enters ffi_closure_asm with nothing changed but t1 and t2; ffi_closure_asm calls ffi_closure_inner with that closure's description, function and data, the caller's stack pointer and a block that holds the caller's argument registers, and changes no memory outside its frame. The same for Go closures entered with the closure's address in t2, whose data is that address. A convention is accepted if and only if it exists.", "quantifier": "all six ABIs, every placement of closure, code mapping, entry point and stack that do not overlap, all register and memory contents", "why_tests_cant": "Six ABIs and all register contents; a swapped or clobbered register is visible only for particular signatures.", "anchors": ["src/riscv/ffi.c: ffi_prep_closure_loc, ffi_prep_go_closure", "src/riscv/sysv.S: ffi_closure_asm, ffi_go_closure_asm"]}
{"id": "C60", "title": "RISC-V: assembly entry points obey the calling convention", "statement": "ffi_call_asm enters the function with the stack pointer at the stacked arguments, the argument registers from the register image and the static chain in t2, and after it returns stores the result registers in the image; the closure entry points return with the result registers from the image. All of them return to their caller with every preserved register (sp, gp, tp, s0-s11, fs0-fs11) as it was. Memory and registers are those that the models of the call and of the closure start from and end with.", "quantifier": "all six ABIs, all states, every behaviour of the called function that obeys the convention and leaves the frame record alone", "why_tests_cant": "A preserved register that is lost matters only if the compiler kept something in it.", "anchors": ["src/riscv/sysv.S: ffi_call_asm, ffi_closure_asm, ffi_go_closure_asm", "src/riscv/ffi.c: ffi_call_int"]}
{"id": "C61", "title": "AArch64: assembly entry points obey the calling convention, return addresses signed and authenticated in pairs", "statement": "ffi_call_SYSV enters the function with the stack pointer at the stacked arguments, the argument registers from the context, the result address in x8 and the static chain in x18, and after it returns stores the result and returns to its caller; the closure entry points hand the C code their own closure and their caller's registers, and return with the result registers loaded. All of them return to their caller with every preserved register (x19-x29, sp, lower halves of v8-v15) as it was; with pointer authentication, every return address that is authenticated was signed with the same modifier. Memory and registers are those that the models of the call and of the closure start from and end with.", "quantifier": "the three modes of pointer authentication, any signing function that inverts, all states, every behaviour of the called function that obeys the convention and leaves the frame record alone", "why_tests_cant": "Pointer authentication needs hardware and compiler flags that most builders lack; preserved registers matter only if the compiler kept something in them.", "anchors": ["src/aarch64/sysv.S: ffi_call_SYSV, ffi_closure_SYSV, ffi_closure_SYSV_V, ffi_go_closure_SYSV, ffi_go_closure_SYSV_V", "src/aarch64/internal.h: SIGN_LR, AUTH_LR_AND_RET, SIGN_LR_WITH_REG, AUTH_LR_WITH_REG"]}
{"id": "C62", "title": "AArch64: signals do not disturb calls and closures", "statement": "A signal handler may run between any two instructions of the assembly entry points and overwrite the stack below the stack pointer. Whatever handlers run, the called function or the C code is entered, and the caller returned to, with the registers and memory of the uninterrupted execution.", "quantifier": "any number of interruptions at any instructions, any change of the stack below the stack pointer, all three modes of pointer authentication, all states", "why_tests_cant": "The window is one to three instructions wide; no test delivers a signal there.", "anchors": ["src/aarch64/sysv.S: ffi_call_SYSV, ffi_closure_SYSV, ffi_go_closure_SYSV", "src/aarch64/internal.h: _sign_lr_with_reg, _auth_lr_with_reg"]}
{"id": "C63", "title": "x86-64: assembly entry points obey the calling convention under interruptions", "statement": "ffi_call_unix64 enters the function with the six argument registers, xmm0-xmm7 (if eax is not zero), eax, the static chain and the arguments in memory taken from the block that ffi_call_int filled, and the stack pointer aligned; after the function returns it stores the result at the given address, changes no other byte of its caller's memory and returns with every preserved register, the x87 stack and the shadow stack as they have to be. The four closure entry points, and ffi_closure_unix64_alt and ffi_closure_unix64_sse_alt after a static trampoline, call ffi_closure_unix64_inner with the object's description, function and data, all argument registers in the frame, the result area and the address of the stacked arguments, and return with the result registers loaded. All this also when signal handlers run between any two instructions and overwrite the stack below the red zone. Memory and registers are those of the models of the call, the closure and the return tables.", "quantifier": "all states and memory contents, both values of __CET__, all sixteen kinds of results, any number of interruptions at any instructions, every behaviour of the called function that obeys the convention", "why_tests_cant": "A handler would have to run within one instruction of a window; preserved registers matter only if the compiler kept something in them.", "anchors": ["src/x86/unix64.S: ffi_call_unix64, ffi_closure_unix64, ffi_closure_unix64_sse, ffi_go_closure_unix64, ffi_go_closure_unix64_sse, ffi_closure_unix64_alt, ffi_closure_unix64_sse_alt", "src/x86/ffi64.c: ffi_call_int, ffi_closure_unix64_inner"]}
{"id": "C64", "title": "x86-64: unwinding leads to the caller from every instruction", "statement": "At every instruction of every execution of the entry points, an unwinder that interprets the call frame tables of unix64.S finds the return address of the caller, the caller's preserved registers and the stack pointer with which the caller goes on; so does one that comes from inside the called function.", "quantifier": "all states, every instruction reached, both values of __CET__, with interruptions", "why_tests_cant": "Exceptions and profilers hit few of the instructions; the tables are written by hand.", "anchors": ["src/x86/unix64.S: eh_frame, ADV, UW0-UW17"]}
{"id": "C65", "title": "x86-64: control-flow enforcement never faults", "statement": "Compiled with __CET__, every indirect jump of the entry points leads to endbr64 and every return matches the shadow stack; the entry points themselves begin with endbr64. The sixteen entries of each jump table lie at their slots, whether or not the assembler has .org.", "quantifier": "all states, all sixteen kinds of results, with interruptions", "why_tests_cant": "Needs hardware, kernel and C library with CET; an entry that overflows its slot is seen only with its kind of result.", "anchors": ["src/x86/unix64.S: E, _CET_ENDBR, store_table, load_table"]}
{"id": "C66", "title": "32-bit ARM: VFP candidates and their registers", "statement": "vfp_type_p returns number and type of members exactly for the types that AAPCS-VFP makes candidates for VFP registers (floats, doubles, complex numbers and structs, however nested, of one to four floats or doubles), and zero for all others. layout_vfp_args gives each candidate the lowest-numbered free run of registers, back-filling single registers, stops when one does not fit, and never sets more than the 16 entries that vfp_args has.", "quantifier": "all well-formed types of any nesting, all lists of argument types", "why_tests_cant": "Back-filling depends on the whole sequence of types; there are infinitely many nested structs.", "anchors": ["src/arm/ffi.c: vfp_type_p, is_hfa0, is_hfa1, place_vfp_arg, layout_vfp_args", "src/arm/ffitarget.h: vfp_args"]}
{"id": "C67", "title": "32-bit ARM: calls pass arguments where AAPCS says", "statement": "ffi_call enters the function with every argument at its place according to AAPCS32 (core registers, split between registers and stack, stack, VFP registers), small integers widened, the address of a result in memory in r0, the static chain in ip and the stack pointer aligned to eight bytes.", "quantifier": "all signatures of well-formed types, FFI_SYSV, FFI_VFP and variadic, all values and states", "why_tests_cant": "Needs signatures that exhaust core or VFP registers in a certain order.", "anchors": ["src/arm/ffi.c: ffi_prep_cif_machdep, ffi_prep_cif_machdep_var, ffi_call_int, ffi_prep_args_SYSV, ffi_prep_args_VFP, ffi_put_arg, ffi_align", "src/arm/sysv.S: ffi_call_VFP, ffi_call_SYSV"]}
{"id": "C68", "title": "32-bit ARM: the block of a call is large enough", "statement": "Preparing a call changes only memory in the block that ffi_call_int allocates below its frame; the arguments do not overlap the frame record (frame pointer, return address, address and kind of the result) that ffi_call_SYSV reads after the call.", "quantifier": "all signatures whose size does not wrap at 2^32, all values and states", "why_tests_cant": "The overlap of one word goes unnoticed unless the function reads its last argument.", "anchors": ["src/arm/ffi.c: ffi_prep_cif_machdep, ffi_call_int", "src/prep_cif.c: ffi_prep_cif_core"]}
{"id": "C69", "title": "32-bit ARM: closures find their arguments", "statement": "A closure or Go closure entered by a caller that obeys AAPCS32 calls its function with the description and data of its object and with an aligned address of every argument, where the argument lies with small integers widened; the address of a result in memory is the caller's. A closure called through ffi_call with the same description always finds the values given to ffi_call.", "quantifier": "all signatures of well-formed types, both kinds of closures, FFI_SYSV, FFI_VFP and variadic, all states", "why_tests_cant": "As C67; tests call closures through ffi_call, where errors of both sides cancel.", "anchors": ["src/arm/ffi.c: ffi_prep_incoming_args_SYSV, ffi_prep_incoming_args_VFP, ffi_closure_inner_SYSV, ffi_closure_inner_VFP, ffi_prep_closure_loc, ffi_prep_go_closure", "src/arm/sysv.S: ffi_closure_SYSV, ffi_closure_VFP, ffi_go_closure_SYSV, ffi_go_closure_VFP"]}
{"id": "C70", "title": "32-bit ARM: results", "statement": "A result in registers is stored at the address given to ffi_call, small integers widened to a word, and no other byte of the caller changes; nothing is stored if the address is null, and a temporary area for an unwanted result in memory is fit for its type. What the function of a closure stores is returned where AAPCS32 says, with the caller's stack pointer, to the caller.", "quantifier": "all result types, all register contents, FFI_SYSV and FFI_VFP", "why_tests_cant": "Bytes behind a small object or misalignment of a temporary area are not observed by tests.", "anchors": ["src/arm/ffi.c: ffi_call_int", "src/arm/sysv.S: ffi_call_SYSV, ffi_closure_ret", "src/arm/internal.h"]}
{"id": "C71", "title": "Machine-dependent stages see well-formed type trees", "statement": "After any history of successful preparations, preparing a signature of types declared in the documented way (library scalars and complex types, structs with size zero over declared types) fails with FFI_BAD_TYPEDEF exactly if a type contains an empty struct; otherwise the machine-dependent stage sees every type of the signature, at any depth and however shared, as a tree with C layout, cif->bytes as the stack space of those trees, and the resulting cif is the one the per-target models assume.", "quantifier": "all heaps of descriptors (shared, nested to any depth), all histories of preparations, all signatures, all targets modelled", "why_tests_cant": "Unboundedly many descriptor graphs with sharing between signatures prepared in any order.", "anchors": ["src/prep_cif.c: initialize_aggregate, ffi_prep_cif_core", "src/types.c", "src/x86/ffi64.c, src/x86/ffi.c, src/x86/ffiw64.c, src/aarch64/ffi.c, src/arm/ffi.c, src/riscv/ffi.c: ffi_prep_cif_machdep"]}
{"id": "C72", "title": "LoongArch64: arguments as the standard prescribes", "statement": "For every signature and all argument values, the function called by ffi_call finds a stack pointer aligned to 16 bytes, every argument in the place the calling convention (lp64d, lp64s) assigns to it, integers widened, arguments above two words as references to aligned copies with their values, and the address of a result in memory in a0.", "quantifier": "all signatures of well-formed types, named and variadic, all values, both float ABIs", "why_tests_cant": "Where copies and stack arguments meet depends on the numbers, sizes and alignments of all arguments; the tests contain no signature with more than eight references.", "anchors": ["src/loongarch64/ffi.c: marshal_atom, allocate_and_copy_struct_to_stack, marshal, struct_passed_as_elements, ffi_call_int", "src/prep_cif.c: ffi_prep_cif_core"]}
{"id": "C73", "title": "LoongArch64: stores of a call stay within its block", "statement": "ffi_call writes only into the block it has allocated; stack arguments, copies of arguments passed by reference, the result nobody wants and the register image do not overlap, and that result is aligned for its type.", "quantifier": "all signatures, all values, all stack pointers", "why_tests_cant": "Writes below the stack pointer or into padding go unnoticed in tests.", "anchors": ["src/loongarch64/ffi.c: ffi_call_int, allocate_and_copy_struct_to_stack, marshal_atom"]}
{"id": "C74", "title": "LoongArch64: results", "statement": "A result in registers is stored at rvalue with all its members, integers as an ffi_arg extended according to their type, and nothing else of the caller's memory changes; void functions and results in memory store nothing. What the function of a closure stores is returned in the registers the convention assigns, widened.", "quantifier": "all result types, all register contents", "why_tests_cant": "Bytes behind a small struct are not observed; all result types and values.", "anchors": ["src/loongarch64/ffi.c: unmarshal_atom, unmarshal, ffi_call_int, ffi_closure_inner", "src/loongarch64/sysv.S: ffi_call_asm, ffi_closure_asm"]}
{"id": "C75", "title": "LoongArch64: closures find their arguments", "statement": "A closure entered by a caller that obeys the convention, in particular by ffi_call with the same signature, gives its function aligned addresses of all argument values, which stay while the result is written, and the caller's address for a result in memory; nothing above the caller's stack pointer changes.", "quantifier": "all signatures, all values, both float ABIs", "why_tests_cant": "As C72; in tests errors of call and closure cancel.", "anchors": ["src/loongarch64/ffi.c: unmarshal, ffi_closure_inner", "src/loongarch64/sysv.S: ffi_closure_asm, ffi_go_closure_asm"]}
{"id": "C76", "title": "dlmalloc: blocks are usable and new", "statement": "dlmalloc always returns (no access to unmapped memory, no abort, no endless loop): either a block that is not NULL, aligned, mapped, within the address space and apart from all live blocks, which keep their contents; or NULL with the heap unchanged, and then only because the system refuses memory or the request is nearly as large as the address space. dlfree of a live block always returns and leaves the other blocks usable with their contents.", "quantifier": "all histories of dlmalloc, dlfree, stores into live blocks and foreign changes elsewhere; all request sizes; all answers of mmap and munmap; all page sizes", "why_tests_cant": "The state of the heap depends on the whole history; coalescing, splitting, prepending and adding of segments interact in combinations no test enumerates.", "anchors": ["src/dlmalloc.c: dlmalloc, dlfree, tmalloc_small, tmalloc_large, sys_alloc, prepend_alloc, add_segment"]}
{"id": "C77", "title": "dlmalloc: live blocks do not overlap and keep their contents", "statement": "At every point of every history each live block is mapped and aligned, any two have no byte in common, and each word contains what its owner last stored, whatever the heap has done to its own bookkeeping since.", "quantifier": "all histories", "why_tests_cant": "An overlap or an overwritten word shows only in particular histories, and only if someone looks at that word.", "anchors": ["src/dlmalloc.c: dlmalloc, dlfree, sys_alloc, sys_trim, release_unused_segments"]}
{"id": "C78", "title": "dlmalloc: memory given back to the system holds no live block", "statement": "When dlfree trims the top or releases whole segments, no byte of a live block becomes unmapped.", "quantifier": "all histories, all results of munmap", "why_tests_cant": "Needs heaps of several segments with every pattern of live blocks.", "anchors": ["src/dlmalloc.c: sys_trim, release_unused_segments"]}
{"id": "C79", "title": "dlmalloc: no memory is lost; neighbouring free chunks are always joined", "statement": "At every point of every history the head words divide every segment without gaps into chunks up to the top or the segment's record; every chunk in use is a block handed out and not given back, at most 31 bytes larger than needed; every other chunk is the designated victim or in the bin of its size; of two neighbours at least one is in use, and so is the one before the top. When all blocks were given back, the first segment is nothing but top and every other segment is a single free chunk before its record.", "quantifier": "all histories of calls, system answers and stores; all segments", "why_tests_cant": "A lost chunk causes no failure, only growth that no test measures; missed joins depend on the order of frees among all neighbours.", "anchors": ["src/dlmalloc.c: dlfree, dlmalloc, prepend_alloc, add_segment, insert_chunk, unlink_chunk, init_top"]}
{"id": "C80", "title": "Free memory that is large enough is used, the smallest chunk first, before the system is asked", "statement": "When a free chunk has room for a request, dlmalloc succeeds whatever the system would answer, and the block begins at a free chunk with room for it; for requests above 240 bytes no free chunk with room is smaller, for others only the designated victim may be passed over (by a chunk at most 8 bytes too large) or used although larger. The same success when the top has room. So the system is asked, and a request refused, only when neither any free chunk nor the top is large enough.", "quantifier": "all histories of calls, system answers and stores; all requests; all system answers", "why_tests_cant": "A tree descent that takes a wrong turn or a wrong bitmap scan still returns usable memory and merely wastes or grows; only the order of all free sizes against the tree shape shows it.", "anchors": ["src/dlmalloc.c: dlmalloc, tmalloc_large, tmalloc_small, insert_large_chunk, unlink_large_chunk, compute_tree_index"]}
{"id": "C81", "title": "Closures allocated through dlmalloc over the double mapping work as a whole", "statement": "With dlmalloc's chunks and the doubly mapped segments modelled together and nothing assumed of either: ffi_closure_alloc returns NULL or a closure whose bytes are mapped, writable, aligned and disjoint (in both views) from every other live closure, keep what its owner stored, and are shown executable at the code address, which ffi_data_to_code_pointer also gives; ffi_closure_free accepts either address, never crashes and frees that closure only, whatever trimming, merging and release of segments it causes; the segment lists of both views agree and mapped memory is exactly what dlmalloc believes to be mapped.", "quantifier": "all histories of non-overlapping ffi_closure_alloc, ffi_closure_free, stores by owners and foreign actions; all system answers with page-aligned unused memory, all failures of mmap and munmap except a munmap of data failing after that of its code (C34 has a witness there); all sizes; 64-bit, page sizes that are powers of two; no static trampolines for the code address", "why_tests_cant": "Which segments merge, shrink or vanish depends on the chunk layout that long histories leave behind, and a code address goes wrong only in a segment merged with another offset or unmapped in one view.", "anchors": ["src/closures.c: dlmmap, dlmunmap, ffi_closure_alloc, ffi_closure_free, ffi_data_to_code_pointer", "src/dlmalloc.c: sys_alloc, sys_trim, release_unused_segments, add_segment, set_segment_flags, check_segment_merge"]}
{"id": "C82", "title": "S/390: ffi_call passes the arguments, returns the result and touches nothing else", "statement": "With 31 and with 64 bits: when ffi_call_SYSV branches to the function, every argument is where the ELF ABI puts it (r2-r6, f0/f2(/f4/f6), stack words, register pairs, references to aligned, disjoint copies), r0 holds the static chain, r2 the address for results in memory, the stack pointer is aligned and heads a back chain, and memory outside the allocated area is unchanged. When the function returns as the ABI demands, ffi_call_SYSV returns to its caller with all call-saved registers restored, exactly the result (integers widened to a word) at rvalue, and nothing written if rvalue is NULL.", "quantifier": "all well-formed signatures, values, register contents and memory states; both word sizes; every behaviour of the callee that conforms to the ABI; instruction by instruction through sysv.S", "why_tests_cant": "Needs big-endian S/390 hardware; wrong slots show only for particular mixtures of types and counts, a wrong save offset only if the callee changes that register.", "anchors": ["src/s390/ffi.c: ffi_check_struct_type, ffi_prep_cif_machdep, ffi_call_int", "src/s390/sysv.S: ffi_call_SYSV, .Ltable"]}
{"id": "C83", "title": "S/390: closures give the handler its arguments and give the caller the result", "statement": "With 31 and with 64 bits, for ffi_closure_SYSV and ffi_go_closure_SYSV: the helper is called with cif, fun and user_data of the closure; the argument pointers show exactly the values that a conforming caller passed; the result address is the caller's for results in memory; after the handler, the result is in r2, r2/r3 or f0 as the ABI demands, all call-saved registers are as the caller had them, control returns to the caller.", "quantifier": "all well-formed signatures, values, register and memory contents; all handlers that leave the closure's save area alone", "why_tests_cant": "r6 is both an argument and call-saved; whether a compiler keeps a value there across the call is a matter of luck in tests.", "anchors": ["src/s390/ffi.c: ffi_closure_helper_SYSV, ffi_prep_closure_loc, ffi_prep_go_closure", "src/s390/sysv.S: ffi_closure_SYSV, ffi_go_closure_SYSV, .Ldoclosure"]}
{"id": "C84", "title": "S/390: trampolines reach the closure entry with the closure's address and change no argument", "statement": "Executing the bytes that ffi_prep_closure_loc writes (31 and 64 bits), or any slot of the static trampoline table (64 bits), arrives at the entry point with the closure in r0; r2-r15, floating-point registers and memory are unchanged; the closure holds cif, fun and user_data.", "quantifier": "all addresses of closure, code and entry point, all register and memory contents, all 256 slots", "why_tests_cant": "The encodings are data; a wrong displacement or register number is visible only when the code runs on the target.", "anchors": ["src/s390/ffi.c: ffi_prep_closure_loc, ffi_tramp_arch", "src/s390/sysv.S: trampoline_code_table"]}
{"id": "C85", "title": "S/390: a closure called through ffi_call gets the values that ffi_call was given, and its result arrives", "statement": "ffi_call of the code address of a closure runs through ffi_call_SYSV, the trampoline and ffi_closure_SYSV to the helper, whose argument pointers show the bytes at avalue; what the handler stores as its result is at rvalue afterwards, integers widened to a word; call-saved registers are restored.", "quantifier": "all well-formed signatures, values, register and memory contents; both word sizes", "why_tests_cant": "Both halves could share a mistake that cancels out for the types that tests use.", "anchors": ["src/s390/ffi.c: ffi_call_int, ffi_closure_helper_SYSV", "src/s390/sysv.S"]}
{"id": "C86", "title": "64-bit Power (ELF V2): ffi_call passes arguments as the ABI says and hands back the result", "statement": "From the first instruction of ffi_call_LINUX64 through ffi_prep_args64 to the function: every argument is in the registers or doublewords that the ELF V2 ABI gives it (integers widened, homogeneous structs and floating-point numbers in f1-f13 and v2-v13, variable arguments in the parameter list), r3 holds the address of a result in memory, r12 the function, r11 the static chain, the stack is aligned, has a back chain and a parameter save area where the ABI demands one; after the return the result is at rvalue and r1, r2, r14-r31, f14-f31, v20-v31 and cr2-cr4 are as before.", "quantifier": "all well-formed signatures (fixed and variadic), values, register and memory contents; long double as double, IBM double-double and IEEE binary128", "why_tests_cant": "The number of placements of mixed arguments is unbounded, and overlaps between the register areas in the frame show up only for some.", "anchors": ["src/powerpc/ffi_linux64.c: ffi_prep_cif_linux64_core, ffi_prep_args64, discover_homogeneous_aggregate", "src/powerpc/linux64.S: ffi_call_LINUX64", "src/powerpc/ffi.c: ffi_call_int"]}
{"id": "C87", "title": "64-bit Power (ELF V2): closures hand over arguments and results as the ABI says", "statement": "A function entered through ffi_closure_LINUX64 or ffi_go_closure_linux64 with arguments placed as the ELF V2 ABI says calls the handler with cif, fun and user_data of the closure, with every argument's value at its address in avalue, and with the place of the result; what the handler stores there is returned in the registers the ABI names; r1, r14-r31, f14-f31, v20-v31 and cr2-cr4 are preserved; nothing outside the closure's own frame, the LR doubleword and the parameter area is written.", "quantifier": "all well-formed signatures, fixed or variadic, all values and register contents, all three long double formats", "why_tests_cant": "Tests try some signatures; the three bugs found here (last named IBM long double, two variadic homogeneous structs, assumed parameter area) need particular ones.", "anchors": ["src/powerpc/ffi_linux64.c: ffi_closure_helper_LINUX64", "src/powerpc/linux64_closure.S: ffi_closure_LINUX64, ffi_go_closure_linux64"]}
{"id": "C88", "title": "64-bit Power (ELF V2): trampolines reach the closure code with the closure in r11", "statement": "Executing the bytes that ffi_prep_closure_loc writes, or any of the 1638 slots of the static trampoline table, transfers control to ffi_closure_LINUX64 with the closure (data) in r11 and the entry address in r12, and changes no other register than r0 and ctr, nor memory.", "quantifier": "all addresses of closure, mapping and entry point; all slots; all register contents", "why_tests_cant": "Addresses depend on the system's allocation; the table has 1638 slots.", "anchors": ["src/powerpc/ffi_linux64.c: ffi_prep_closure_loc_linux64", "src/powerpc/linux64_closure.S: trampoline_code_table", "src/powerpc/internal.h"]}
{"id": "C89", "title": "64-bit Power (ELF V2): a closure called by ffi_call gets the given values and gives back the result", "statement": "ffi_call of a closure's code address: the handler sees exactly the values at avalue, and what it stores as result is at rvalue when ffi_call is done; registers that belong to the caller are preserved.", "quantifier": "all well-formed signatures, values, addresses and long double formats", "why_tests_cant": "The product of signatures, values and layouts is unbounded.", "anchors": ["src/powerpc/ffi_linux64.c", "src/powerpc/linux64.S", "src/powerpc/linux64_closure.S"]}
{"id": "C90", "title": "Win64: assembly entry points obey the calling convention under interruptions", "statement": "ffi_call_win64 enters the function with every argument where the Windows x64 convention has it (slots in rcx, rdx, r8, r9, xmm0-xmm3 and memory), a memory result's address in rcx, the static chain in r10 and the stack aligned; afterwards the result is stored at rvalue as its flag says, with all preserved registers (rbx, rbp, rdi, rsi, r12-r15, xmm6-xmm15), the shadow stack and all other memory of the caller as before. ffi_closure_win64, ffi_go_closure_win64 and, after a static trampoline, ffi_closure_win64_alt call ffi_closure_win64_inner with the object's cif, function and data and the frame; the arguments it finds there are the ones the caller passed; what it leaves in the result area is returned by the convention. The written trampoline leads there with the closure in r10. A closure called by ffi_call sees the given values and its result is stored at rvalue.", "quantifier": "all signatures, values, addresses, register and memory contents, FFI_WIN64 and FFI_GNUW64, with Windows' and with System V's registers for ffi_call_win64 itself, both values of __CET__, any number of interruptions at any instructions, every behaviour of the called function that obeys the convention", "why_tests_cant": "Signatures and interruptions are unbounded; preserved registers matter only if the compiler kept something in them.", "anchors": ["src/x86/win64.S: ffi_call_win64, ffi_closure_win64, ffi_go_closure_win64, ffi_closure_win64_alt", "src/x86/ffiw64.c: ffi_call_int, ffi_closure_win64_inner, ffi_prep_closure_loc"]}
{"id": "C91", "title": "Win64: unwinding leads to the caller from every instruction", "statement": "At every instruction of every execution of the entry points of win64.S, an unwinder that reads the call frame directives, and on Windows one that reads the unwind codes with Windows' rule for epilogues, finds the caller's return address, preserved registers and stack pointer; so does one that comes from inside the called function.", "quantifier": "all states, every instruction reached, all configurations, with interruptions", "why_tests_cant": "Exceptions and profilers hit few of the instructions; the directives are written by hand.", "anchors": ["src/x86/win64.S: cfi_*, SEH"]}
{"id": "C92", "title": "Win64: the entry points never fault, and control-flow enforcement never traps", "statement": "No instruction of the entry points faults on any way from entry to exit: the jump into the table of results lands on an entry, every return matches the shadow stack, all entry points begin with endbr64 with __CET__. Every entry of the table fits its eight bytes, whether or not the assembler has .org.", "quantifier": "all states, all result flags, all configurations, with interruptions", "why_tests_cant": "Needs hardware, kernel and C library with CET; an entry that overflows its slot is seen only with its kind of result.", "anchors": ["src/x86/win64.S: E, _CET_ENDBR, ffi_call_win64"]}
{"id": "C93", "title": "LoongArch: trampolines and Go closures lead to their own closure", "statement": "The code that ffi_prep_closure_loc writes, and every slot of the static trampoline table that ffi_tramp_arch describes, executed instruction by instruction, enters ffi_closure_asm with nothing changed but t0 and t1; ffi_closure_asm calls ffi_closure_inner with that closure's description, function and data, the caller's stack pointer and a block that holds the caller's argument registers, and changes no memory outside its frame. The same for Go closures entered with the closure's address in t2, whose data is that address. A convention is accepted if and only if it exists.", "quantifier": "every placement of closure, code mapping, table (all 4096 slots), entry point and stack that do not overlap, all register and memory contents, all three float ABIs", "why_tests_cant": "A swapped or clobbered register is visible only for particular signatures; the static table has 4096 slots, tests use the first few.", "anchors": ["src/loongarch64/ffi.c: ffi_prep_closure_loc, ffi_prep_go_closure, ffi_tramp_arch", "src/loongarch64/sysv.S: ffi_closure_asm, ffi_go_closure_asm, trampoline_code_table"]}
{"id": "C94", "title": "LoongArch: assembly entry points obey the calling convention", "statement": "ffi_call_asm enters the function with the stack pointer at the stacked arguments, the argument registers from the register image and the static chain in t2, and after it returns stores the result registers in the image; the closure entry points return with the result registers from the image. All of them return to their caller with every preserved register (tp, sp, r21, fp, s0-s8, fs0-fs7) as it was. Memory and registers are those that the models of the call and of the closure (C72-C75) start from and end with.", "quantifier": "all float ABIs, all states, every behaviour of the called function that obeys the convention and leaves the frame record alone", "why_tests_cant": "A preserved register that is lost matters only if the compiler kept something in it.", "anchors": ["src/loongarch64/sysv.S: ffi_call_asm, ffi_closure_asm, ffi_go_closure_asm", "src/loongarch64/ffi.c: ffi_call_int"]}
{"id": "C95", "title": "RISC-V and LoongArch: assembly entry points are safe under interruptions", "statement": "Signal handlers that run before any instructions of ffi_call_asm, ffi_closure_asm and ffi_go_closure_asm and overwrite the stack below the stack pointer of that moment make no difference: the function is entered with the same registers, stacked arguments and frame record, ffi_closure_inner with the same arguments and the same block, and the way out returns the same results and restores the same registers.", "quantifier": "all ABIs of both targets, all states, any number of interruptions at any instructions, any contents that they leave", "why_tests_cant": "A signal would have to arrive at one particular instruction.", "anchors": ["src/riscv/sysv.S", "src/loongarch64/sysv.S"]}
{"id": "C96", "title": "RISC-V and LoongArch: unwinding leads to the caller from every instruction", "statement": "At every instruction of every execution of ffi_call_asm, ffi_closure_asm and ffi_go_closure_asm, the row that the call frame directives give for that instruction yields the return address and the caller's preserved registers, and a frame address that is the same at all instructions: the caller's stack pointer for closures, the end of the register image for ffi_call_asm. So does the row of the call while the called function runs.", "quantifier": "all ABIs of both targets, all states, every instruction reached, with interruptions", "why_tests_cant": "Exceptions and profilers hit few of the instructions; the directives are written by hand.", "anchors": ["src/riscv/sysv.S: cfi_*", "src/loongarch64/sysv.S: .cfi_*"]}
{"id": "C97", "title": "ARM: assembly entry points obey the calling convention under interruptions", "statement": "However they are interrupted by signal handlers that overwrite the stack below the stack pointer of that moment, ffi_call_VFP and ffi_call_SYSV enter the function with r0-r3, s0-s15, ip, stack pointer and stacked arguments that ffi_call_int prepared, and after it returns store the result and return to their caller with r4-r11; the closure entry points (ordinary, Go, for static trampolines) call the inner function with the closure's fields and the frame that holds r0-r3, s0-s15, and return its result in the right registers with r4-r11 and the stack pointer of the caller. No instruction faults, every execution can finish, and the stack stays aligned to 8 at the calls.", "quantifier": "all signatures (VFP or not), all states, any number of interruptions at any instructions with any contents, every behaviour of the called function that obeys the convention", "why_tests_cant": "A signal would have to arrive at one particular instruction; a preserved register that is lost matters only if the compiler kept something in it.", "anchors": ["src/arm/sysv.S: ffi_call_VFP, ffi_call_SYSV, ffi_closure_*, ffi_go_closure_*, ffi_closure_ret", "src/arm/ffi.c: ffi_call_int, ffi_closure_inner_SYSV"]}
{"id": "C98", "title": "ARM: unwinding leads to the caller from every instruction", "statement": "At every instruction of every execution of sysv.S, the row that the call frame directives give yields the return address, r4-r11 and the stack pointer of the caller; while the called function runs, so do the row of the call instruction and the exception-handling table (.save, .setfp).", "quantifier": "all entry points, all states, every instruction reached, with interruptions", "why_tests_cant": "Exceptions and profilers hit few of the instructions; the directives are written by hand.", "anchors": ["src/arm/sysv.S: cfi_*, .save, .setfp"]}
{"id": "C99", "title": "ARM: trampolines reach the entry point with their closure", "statement": "Decoded from the bytes that ffi_prep_closure_loc writes, or from any of the 204 slots of the static table with the parameters it sets, a trampoline comes, however it is interrupted, to the entry point for the signature, and the inner function is called with the ffi_cif, function and user data that were given; Go closures with the closure itself. Nothing of the caller's memory or preserved registers changes. Closures are prepared exactly for FFI_SYSV and FFI_VFP.", "quantifier": "all closures, addresses, slots, states and interruptions", "why_tests_cant": "The words and offsets are fixed at build time; a wrong one shows only for some slots or addresses.", "anchors": ["src/arm/sysv.S: ffi_arm_trampoline, trampoline_code_table, ffi_closure_*_alt", "src/arm/ffi.c: ffi_prep_closure_loc, ffi_prep_go_closure", "src/tramp.c: ffi_tramp_set_parms"]}
{"id": "C100", "title": "Alpha: ffi_call passes arguments and stores results by the calling standard", "statement": "For every signature, ffi_call_int and ffi_call_osf, executed instruction by instruction, enter the function with every argument where the Alpha calling standard puts it (six slots in $16-$21 or $f16-$f21, then the stack; long double and its complex by reference; hidden address first), the stack aligned, nothing outside the allocated area written; after the function returns, the result in $0, $f0, $f1 arrives at rvalue, only its register-sized area is written, and the preserved registers are the caller's.", "quantifier": "all well-formed signatures, argument values, addresses and memories; all conforming functions", "why_tests_cant": "Signatures and the mix of register files are unbounded; the jump table of ffi_call_osf and the slot offsets are hand-written.", "anchors": ["src/alpha/ffi.c: ffi_prep_cif_machdep, extend_basic_type, ffi_call_int", "src/alpha/osf.S: ffi_call_osf"]}
{"id": "C101", "title": "Alpha: closures give the handler the caller's arguments and return its result", "statement": "When a function with the address of ffi_closure_osf or ffi_go_closure_osf is called by the calling standard, ffi_closure_osf_inner hands the handler a pointer to each argument's value, with the closure's cif, function and user data; what the handler stores is returned in the registers of the calling standard, the caller's preserved registers and stack pointer are restored.", "quantifier": "all well-formed signatures, argument values, machine states; with and without the byte-word extension", "why_tests_cant": "Each result type has its own entry of the jump table, and each argument index its own save slot.", "anchors": ["src/alpha/ffi.c: ffi_closure_osf_inner", "src/alpha/osf.S: ffi_closure_osf, ffi_go_closure_osf"]}
{"id": "C102", "title": "Alpha: trampolines, and closures called through ffi_call", "statement": "The three instructions that ffi_prep_closure_loc writes, decoded from memory, reach ffi_closure_osf with the closure in $1 and change nothing else; an ffi_call of a closure or Go closure gives the handler the values that ffi_call was given, and its result arrives at rvalue.", "quantifier": "all closures, addresses, signatures, values", "why_tests_cant": "Words of machine code written by C code; both halves could agree on a wrong convention for a given type only when called with it.", "anchors": ["src/alpha/ffi.c: ffi_prep_closure_loc, ffi_prep_go_closure, ffi_call_go"]}
{"id": "C103", "title": "Alpha: osf.S is safe under interruptions", "statement": "If anything between a bound and the stack pointer changes before any instruction of osf.S, as signal handlers do, ffi_call_osf still comes to the function with the state of C100 and back to ffi_call_int with its result, and both closure entry points come to ffi_closure_osf_inner and back to the caller as in C101.", "quantifier": "all signatures, values and states; any number of interruptions at any instruction; all contents of the changed memory", "why_tests_cant": "A signal must hit one particular instruction; ffi_call_osf moves the stack pointer over its own frame by hand.", "anchors": ["src/alpha/osf.S: ffi_call_osf, ffi_closure_osf, ffi_go_closure_osf"]}
{"id": "C104", "title": "Alpha: unwinding leads to the caller from every instruction", "statement": "At every instruction of every execution of osf.S, interrupted or not, and while the called function or the handler runs, the row that the call frame directives give yields the return address, $15 and $9-$14 of the caller and the same frame address throughout.", "quantifier": "all entry points, all states, every instruction reached, with interruptions", "why_tests_cant": "Exceptions and profilers hit few of the instructions; the directives are written by hand.", "anchors": ["src/alpha/osf.S: cfi_*"]}
{"id": "C105", "title": "OpenRISC: ffi_call passes arguments and returns the result", "statement": "ffi_call, ffi_prep_args and ffi_call_SYSV together enter the function with every argument where the calling convention has it (registers, stack, variadic arguments on the stack, structs as pointers to copies), and afterwards return to the caller of ffi_call with all registers that must be kept, with the result at rvalue, and with nothing else changed.", "quantifier": "all signatures, variadic or not, all values, all states in which ffi_call_SYSV is entered, all functions that follow the convention", "why_tests_cant": "The area for arguments is computed separately from the placement; where the two disagree a register of a distant caller changes, which tests do not look at.", "anchors": ["src/or1k/ffi.c: ffi_prep_args, ffi_call, ffi_prep_cif_machdep, ffi_prep_cif_machdep_var", "src/or1k/sysv.S: ffi_call_SYSV"]}
{"id": "C106", "title": "OpenRISC: closures hand over the caller's arguments and return the handler's result", "statement": "ffi_closure_SYSV gives the handler pointers to exactly the values that the caller has passed, in registers, on the stack, variadic or by reference, and what the handler stores at rvalue is what the caller finds in r11 and r12.", "quantifier": "all signatures, all values, all register and memory contents", "why_tests_cant": "The walk over registers and stack has special cases for the last register and for the first variadic argument whose combinations are many.", "anchors": ["src/or1k/ffi.c: ffi_closure_SYSV"]}
{"id": "C107", "title": "OpenRISC: the trampoline enters ffi_closure_SYSV with its closure", "statement": "The six words that ffi_prep_closure_loc writes, decoded from memory and executed with delay slots, jump to ffi_closure_SYSV with the address of the closure in r13 and the stack pointer in r17, and change nothing else but r15.", "quantifier": "all addresses of closures and of ffi_closure_SYSV, all register contents", "why_tests_cant": "Addresses with particular halves (zero, high bit set) do not occur on one machine.", "anchors": ["src/or1k/ffi.c: ffi_prep_closure_loc"]}
{"id": "C108", "title": "68000: ffi_call passes arguments and returns the result", "statement": "ffi_call, ffi_prep_args and ffi_call_SYSV together enter the function with every argument on the stack where the convention has it, extended to a word if it is small, and with the address of a result in memory in a1; afterwards the result is at rvalue, extended as ffi_arg requires, and the caller of ffi_call_SYSV gets back its registers and its stack.", "quantifier": "all signatures, all values, all states in which ffi_call_SYSV is entered, all functions that follow the convention, with and without a floating-point unit, with and without the instructions of later processors", "why_tests_cant": "A compiler usually extends unsigned results although the convention does not ask for it, and configurations without a floating-point unit are rarely tested.", "anchors": ["src/m68k/ffi.c: ffi_prep_args, ffi_call, ffi_prep_cif_machdep", "src/m68k/sysv.S: ffi_call_SYSV"]}
{"id": "C109", "title": "68000: closures hand over the caller's arguments and return the handler's result", "statement": "ffi_closure_SYSV and ffi_closure_struct_SYSV call ffi_closure_SYSV_inner with the closure, the place of the result and the arguments; the handler gets the addresses of the values that the caller has passed, and the result it stores is in the registers where the caller looks for it.", "quantifier": "all signatures, all values, all register and memory contents, with and without a floating-point unit, with and without the instructions of later processors", "why_tests_cant": "The result passes through a chain of tests of bits in the flags, each with a load of its own and a variant for older processors.", "anchors": ["src/m68k/ffi.c: ffi_prep_incoming_args_SYSV, ffi_closure_SYSV_inner", "src/m68k/sysv.S: ffi_closure_SYSV, ffi_closure_struct_SYSV"]}
{"id": "C110", "title": "68000: the trampoline enters the right function with its closure", "statement": "The words that ffi_prep_closure_loc writes, decoded from memory where they are executed, load the address of the closure into a0 and jump to ffi_closure_struct_SYSV exactly if the result is returned in memory, otherwise to ffi_closure_SYSV.", "quantifier": "all return types, all addresses, all register contents", "why_tests_cant": "Whether a struct is returned in memory depends on its size and on its first member; tests cover a few layouts.", "anchors": ["src/m68k/ffi.c: ffi_prep_closure_loc, ffi_prep_cif_machdep"]}
{"id": "C111", "title": "68000: a closure called with ffi_call gets the arguments and gives back the result", "statement": "When the function that is given to ffi_call is a closure, the handler is given addresses of the values in avalue, and the result that it stores is found at rvalue when the call returns, extended as ffi_arg requires; results in memory are stored by the handler at rvalue itself.", "quantifier": "all signatures, all values, all states in which ffi_call_SYSV is entered, all handlers, with and without a floating-point unit", "why_tests_cant": "Both sides have their own table of flags; a wrong entry in one of them is seen for one return type and one processor only.", "anchors": ["src/m68k/ffi.c: ffi_call, ffi_prep_args, ffi_prep_closure_loc, ffi_prep_incoming_args_SYSV", "src/m68k/sysv.S: ffi_call_SYSV, ffi_closure_SYSV, ffi_closure_struct_SYSV"]}

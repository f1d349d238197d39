import Verif.AArch64.AllocLemmas
import Verif.AArch64.Asm
import Verif.AArch64.AsmLemmas
import Verif.AArch64.AsmSignal
import Verif.AArch64.CallLemmas
import Verif.AArch64.CallLoop
import Verif.AArch64.ClosureLemmas
import Verif.AArch64.Hfa
import Verif.AArch64.Model
import Verif.AArch64.RetLemmas
import Verif.AArch64.Room
import Verif.AArch64.TrampLemmas
import Verif.AArch64.TrampModel
import Verif.Alpha.Asm
import Verif.Alpha.AsmCall
import Verif.Alpha.AsmClosure
import Verif.Alpha.AsmIrq
import Verif.Alpha.AsmSafe
import Verif.Alpha.Call
import Verif.Alpha.Closure
import Verif.Alpha.Model
import Verif.Alpha.Tramp
import Verif.Alpha.Whole
import Verif.Arm.Alloc
import Verif.Arm.Asm
import Verif.Arm.AsmCall
import Verif.Arm.AsmClosure
import Verif.Arm.AsmSafe
import Verif.Arm.Call
import Verif.Arm.Closure
import Verif.Arm.Hfa
import Verif.Arm.Layout
import Verif.Arm.Loops
import Verif.Arm.Model
import Verif.Arm.Result
import Verif.Arm.Room
import Verif.Arm.Tramp
import Verif.Axioms
import Verif.Base.Align
import Verif.Base.BE
import Verif.Base.BufLemmas
import Verif.Base.Bytes
import Verif.Base.Code
import Verif.Base.Common
import Verif.Base.Dll
import Verif.Base.FType
import Verif.Base.Fp
import Verif.Base.Mem
import Verif.Closures.Heap
import Verif.Closures.HeapAsk
import Verif.Closures.HeapKeep
import Verif.Closures.HeapLink
import Verif.Closures.HeapSegs
import Verif.Closures.HeapTrim
import Verif.Closures.Mach
import Verif.Closures.MachFree
import Verif.Closures.MachInv
import Verif.Closures.MachOps
import Verif.Closures.MachReach
import Verif.Closures.MachWitness
import Verif.Closures.Seg
import Verif.Closures.SegBack
import Verif.Closures.SegInv
import Verif.Closures.SegLive
import Verif.Closures.SegMap
import Verif.Closures.SegOps
import Verif.Closures.SegRace
import Verif.Closures.Temp
import Verif.Closures.TempLemmas
import Verif.Closures.TempWitness
import Verif.Core.FuelLemmas
import Verif.Core.Lemmas
import Verif.Core.Model
import Verif.Core.PrepLemmas
import Verif.Core.Tree
import Verif.Dl.AddSeg
import Verif.Dl.Alloc
import Verif.Dl.Bins
import Verif.Dl.Bits
import Verif.Dl.Choose
import Verif.Dl.Fit
import Verif.Dl.Free
import Verif.Dl.Hist
import Verif.Dl.Inv
import Verif.Dl.Malloc
import Verif.Dl.Model
import Verif.Dl.Prepend
import Verif.Dl.Sys
import Verif.Dl.Tags
import Verif.Dl.Tile
import Verif.Dl.Top
import Verif.Dl.Trie
import Verif.Dl.Trim
import Verif.I386.Call
import Verif.I386.Closure
import Verif.I386.Layout
import Verif.I386.Model
import Verif.I386.Place
import Verif.I386.Pop
import Verif.I386.Raw
import Verif.I386.RawClosure
import Verif.I386.Result
import Verif.I386.TrampLemmas
import Verif.I386.TrampModel
import Verif.LoongArch.Asm
import Verif.LoongArch.AsmCfi
import Verif.LoongArch.AsmLemmas
import Verif.LoongArch.Call
import Verif.LoongArch.CallLemmas
import Verif.LoongArch.Closure
import Verif.LoongArch.ClosureLemmas
import Verif.LoongArch.Model
import Verif.LoongArch.RetLemmas
import Verif.LoongArch.Room
import Verif.LoongArch.Slots
import Verif.LoongArch.Tramp
import Verif.M68k.Args
import Verif.M68k.Asm
import Verif.M68k.AsmClosure
import Verif.M68k.AsmRet
import Verif.M68k.Closure
import Verif.M68k.Ffi
import Verif.M68k.Model
import Verif.M68k.Whole
import Verif.Or1k.Asm
import Verif.Or1k.Call
import Verif.Or1k.Closure
import Verif.Or1k.Ffi
import Verif.Or1k.Model
import Verif.Ppc.Asm
import Verif.Ppc.AsmCall
import Verif.Ppc.AsmClosure
import Verif.Ppc.Call
import Verif.Ppc.Closure
import Verif.Ppc.Entry
import Verif.Ppc.Layout
import Verif.Ppc.Loop
import Verif.Ppc.Model
import Verif.Ppc.Tramp
import Verif.Ppc.Whole
import Verif.Ppc.WholeClosure
import Verif.Props.AArch64
import Verif.Props.AArch64Asm
import Verif.Props.AArch64Signal
import Verif.Props.AArch64Tramp
import Verif.Props.Alpha
import Verif.Props.AlphaAsm
import Verif.Props.Arm
import Verif.Props.ArmAsm
import Verif.Props.ArmTramp
import Verif.Props.Core
import Verif.Props.Dl
import Verif.Props.DlFit
import Verif.Props.DlTile
import Verif.Props.Heap
import Verif.Props.I386
import Verif.Props.I386RawClosure
import Verif.Props.I386Tramp
import Verif.Props.LoongArch
import Verif.Props.LoongArchAsm
import Verif.Props.LoongArchInt
import Verif.Props.M68k
import Verif.Props.M68kTrip
import Verif.Props.Mach
import Verif.Props.Or1k
import Verif.Props.Ppc
import Verif.Props.PpcClosure
import Verif.Props.Raw
import Verif.Props.RiscV
import Verif.Props.RiscVAsm
import Verif.Props.RiscVInt
import Verif.Props.S390
import Verif.Props.Seg
import Verif.Props.Temp
import Verif.Props.Tramp
import Verif.Props.Tree
import Verif.Props.Win64
import Verif.Props.Win64Asm
import Verif.Props.X64
import Verif.Props.X64Asm
import Verif.Raw.Closure
import Verif.Raw.ClosureLemmas
import Verif.Raw.JavaLemmas
import Verif.Raw.Lemmas
import Verif.Raw.Model
import Verif.Raw.StepLemmas
import Verif.RiscV.Asm
import Verif.RiscV.AsmCfi
import Verif.RiscV.AsmInt
import Verif.RiscV.AsmLemmas
import Verif.RiscV.Call
import Verif.RiscV.CallLemmas
import Verif.RiscV.CallLoop
import Verif.RiscV.Classify
import Verif.RiscV.Closure
import Verif.RiscV.ClosureLemmas
import Verif.RiscV.Flat
import Verif.RiscV.Marshal
import Verif.RiscV.Model
import Verif.RiscV.RetLemmas
import Verif.RiscV.Slots
import Verif.S390.Asm
import Verif.S390.AsmCall
import Verif.S390.AsmClosure
import Verif.S390.Call
import Verif.S390.Closure
import Verif.S390.Entry
import Verif.S390.Layout
import Verif.S390.Model
import Verif.S390.Tramp
import Verif.S390.Whole
import Verif.S390.WholeClosure
import Verif.Spec.AArch64
import Verif.Spec.Alpha
import Verif.Spec.Arm
import Verif.Spec.Build
import Verif.Spec.Dl
import Verif.Spec.Heap
import Verif.Spec.I386
import Verif.Spec.Layout
import Verif.Spec.LoongArch
import Verif.Spec.M68k
import Verif.Spec.Mach
import Verif.Spec.Or1k
import Verif.Spec.Ppc
import Verif.Spec.Raw
import Verif.Spec.RiscV
import Verif.Spec.S390
import Verif.Spec.Seg
import Verif.Spec.Temp
import Verif.Spec.Tramp
import Verif.Spec.TypeLemmas
import Verif.Spec.Win64
import Verif.Spec.X64
import Verif.Tramp.ActiveLemmas
import Verif.Tramp.AllocLemmas
import Verif.Tramp.DelLemmas
import Verif.Tramp.HistLemmas
import Verif.Tramp.Inv
import Verif.Tramp.Model
import Verif.Tramp.OpLemmas
import Verif.Tramp.ReachLemmas
import Verif.Win64.Asm
import Verif.Win64.AsmClosure
import Verif.Win64.AsmExit
import Verif.Win64.AsmLemmas
import Verif.Win64.AsmRefine
import Verif.Win64.AsmSafe
import Verif.Win64.CallLemmas
import Verif.Win64.ClosureLemmas
import Verif.Win64.Lemmas
import Verif.Win64.Model
import Verif.Win64.ResultLemmas
import Verif.X64.Asm
import Verif.X64.AsmAlt
import Verif.X64.AsmClosExit
import Verif.X64.AsmClosure
import Verif.X64.AsmExit
import Verif.X64.AsmLemmas
import Verif.X64.AsmRefine
import Verif.X64.AsmSafe
import Verif.X64.CallLemmas
import Verif.X64.CallLoop
import Verif.X64.ClassifyLemmas
import Verif.X64.EntryLemmas
import Verif.X64.Model
import Verif.X64.PrepLemmas
import Verif.X64.ResultLemmas
import Verif.X64.Ret
import Verif.X64.RetLemmas
import Verif.X64.TrampLemmas
import Verif.X64.TrampModel

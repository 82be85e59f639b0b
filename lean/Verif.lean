import Verif.Basic
import Verif.Path.Model
import Verif.Path.Tokens
import Verif.Path.Spec
import Verif.Path.Split
import Verif.Path.SpecLemmas
import Verif.Path.Shape
import Verif.Path.Ext
import Verif.Path.Loose
import Verif.Path.Compare
import Verif.Path.Generic
import Verif.Path.Normal
import Verif.Path.NormSpec
import Verif.Path.NormLemmas
import Verif.Path.Rel
import Verif.Path.Hist
import Verif.Path.Iter
import Verif.Path.Quoted
import Verif.Path.Total
import Verif.Props.Reach
import Verif.Props.PathA
import Verif.Props.PathB
import Verif.Os.Prog
import Verif.Ops.Status
import Verif.Ops.Time
import Verif.Ops.Simple
import Verif.Ops.CopyFile
import Verif.Ops.Variants
import Verif.Dir.Entry
import Verif.Dir.Iter
import Verif.Dir.Shared
import Verif.Ops.Recursive
import Verif.Ops.Agree
import Verif.Ops.Agree2
import Verif.Props.OpsA
import Verif.Os.Calls
import Verif.Os.Eval
import Verif.Ops.Exec
import Verif.Ops.Bitmask
import Verif.Props.OpsB
import Verif.Props.OpsC
import Verif.Props.OpsD
import Verif.Dir.StreamLemmas
import Verif.Props.DirA
import Verif.Props.DirB
import Verif.Props.DirC
import Verif.Props.DirD
import Verif.Props.OpsE
import Verif.Os.Ghost
import Verif.Os.Conf
import Verif.Props.CopyA
import Verif.Props.CopyB
import Verif.Props.ErrA
import Verif.Props.EntryA
import Verif.Props.EntryB
import Verif.Props.CopyC
import Verif.Props.RemoveA
import Verif.Props.RemoveB
import Verif.Props.CreateA
import Verif.Props.CopyD
import Verif.Win.Time
import Verif.Win.Perms
import Verif.Props.WinA
import Verif.Props.WinB
import Verif.Path.WinSpec
import Verif.Path.WinSplit
import Verif.Path.WinLemmas
import Verif.Path.WinAppend
import Verif.Props.WinC
import Verif.Path.WinParent
import Verif.Win.Canonical
import Verif.Win.Whole
import Verif.Props.WinD
import Verif.Props.CopyE
import Verif.Props.DirE
import Verif.Win.Base
import Verif.Win.Ops
import Verif.Win.Entry
import Verif.Win.Dir
import Verif.Win.Copy
import Verif.Win.World
import Verif.Props.WinE
import Verif.Props.WinF
import Verif.Props.WinG
import Verif.Props.WinH
import Verif.Props.WinI
import Verif.Props.WinJ
import Verif.Props.WinK
import Verif.Win.Agree
import Verif.Props.WinL
import Verif.Props.WinM
import Verif.Props.WinN
import Verif.Props.WinO
import Verif.Props.WinP
import Verif.Props.WinQ
import Verif.Props.WinR
import Verif.Props.WinS
import Verif.Path.WinCompare
import Verif.Path.WinGeneric
import Verif.Path.WinExt
import Verif.Props.WinT
import Verif.Path.WinNormal
import Verif.Path.WinRel
import Verif.Props.WinU
import Verif.Props.WinV
import Verif.Props.WinW
import Verif.Props.WinX
import Verif.Win.Kernel
import Verif.Win.Tree
import Verif.Props.WinY
import Verif.Props.DirF
import Verif.Props.WinZ
import Verif.Props.WinAA
import Verif.Win.Sec
import Verif.Props.WinAB
import Verif.Props.WinAC
import Verif.Props.WinAD
import Verif.Props.WinAE
import Verif.Win.Weakly
import Verif.Props.WinAF
import Verif.Props.WinAG
import Verif.Props.WinAH
import Verif.Path.WinFirm
import Verif.Props.WinAI
import Verif.Props.WinAJ
import Verif.Props.WinAK
import Verif.Props.Port
import Verif.Props.Noexcept
import Verif.Props.Confine
import Verif.Props.ConfineW
import Verif.Props.ErrW
import Verif.Os.Sound
import Verif.Props.Faultless
import Verif.Props.Kinds
import Verif.Path.Chars
import Verif.Props.CharsA
import Verif.Os.CStr
import Verif.Props.CStr
import Verif.Props.WinAL
import Verif.Path.Source
import Verif.Props.SourceA
import Verif.Props.EqualA
import Verif.Props.CanonA
import Verif.Os.Kernel
import Verif.Os.KernelLemmas
import Verif.Props.KernelA
import Verif.Props.MsgA
import Verif.Props.MsgB
import Verif.Props.EqualW
import Verif.Props.KernelB
import Verif.Os.KernelDir
import Verif.Props.KernelC
import Verif.Props.KernelD
import Verif.Os.KernelFile
import Verif.Os.KernelTidy
import Verif.Props.KernelE
import Verif.Props.KernelF
import Verif.Props.KernelG
import Verif.Props.CStrW
import Verif.Props.MsgC
import Verif.Props.KernelH
import Verif.Props.AllOrNone
import Verif.Props.Heed
import Verif.Props.PortsB
import Verif.Props.Genuine
import Verif.Props.GenuineB
import Verif.Props.GenuineC

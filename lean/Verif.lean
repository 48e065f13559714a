import Verif.Base
import Verif.Kernel
import Verif.KernelThms
import Verif.KernelCol
import Verif.Partition
import Verif.Sched
import Verif.SchedThms
import Verif.Drv
import Verif.KernelTask
import Verif.Driver
import Verif.Toy
import Verif.ClaimsThreads
import Verif.ClaimsKernel
import Verif.RealArith
import Verif.ClaimsReal
import Verif.ClaimsTerm
import Verif.Arr
import Verif.ClaimsArr
import Verif.ClaimsArrReal
import Verif.Superpos
import Verif.Prog
import Verif.Annu
import Verif.AnnuThms
import Verif.ClaimsAnnu
import Verif.Fft
import Verif.ExactFft
import Verif.Att
import Verif.KernelRel
import Verif.ClaimsAtt
import Verif.Conv
import Verif.FftConv
import Verif.ConvP
import Verif.ProgBad
import Verif.ClaimsConv
import Verif.Ola
import Verif.ClaimsOla
import Verif.Das
import Verif.ClaimsDas
import Verif.Analytic
import Verif.Circle
import Verif.ClaimsCirc
import Verif.RectCircle
import Verif.ClaimsRect
import Verif.ArgParser
import Verif.ClaimsArgs
import Verif.ClaimsArgsArr
import Verif.ClaimsArgsReal
import Verif.ClaimsArgsAnnu
import Verif.ClaimsOpts
import Verif.ClaimsCopy
import Verif.SirData
import Verif.ClaimsGpu
import Verif.GpuDas
import Verif.ErrSpec
import Verif.ClaimsGeo
import Verif.ClaimsGeoAnnu
import Verif.DasFront
import Verif.ClaimsDasFront
import Verif.DasUni
import Verif.ClaimsDasUni
import Verif.ClaimsUniFront
import Verif.ClaimsAttLaw
import Verif.GpuRect
import Verif.ClaimsGpuRect
import Verif.AnaFront
import Verif.ClaimsAnaFront
import Verif.ApodWin
import Verif.ClaimsApodWin
import Verif.AttFront
import Verif.ClaimsAttFront
import Verif.ConvHost
import Verif.ClaimsConvHost
import Verif.OctDev
import Verif.ClaimsOctDev
import Verif.EnvThreads
import Verif.ClaimsEnvThreads
import Verif.RoundErr
import Verif.ClaimsRound
import Verif.ClaimsSirRound
import Verif.Race
import Verif.ClaimsRace
import Verif.Signals
import Verif.ClaimsSignals
import Verif.MFiles
import Verif.ClaimsMFiles
import Verif.InPlace
import Verif.ClaimsInPlace
import Verif.ClaimsConverge
import Verif.ClaimsSymmetry
import Verif.Whole
import Verif.ClaimsWhole
import Verif.Spawn
import Verif.ClaimsSpawn
import Verif.Mach
import Verif.ClaimsMach
import Verif.Special
import Verif.ClaimsSpecial
import Verif.WholeMore
import Verif.ClaimsWholeMore
import Verif.WholeConv
import Verif.ClaimsWholeConv
import Verif.ClaimsWholeConv2
import Verif.Classes
import Verif.ClaimsClasses
import Verif.ClaimsClasses2
import Verif.WholeAna
import Verif.ClaimsWholeAna
import Verif.ClaimsWholeCopy
import Verif.ClaimsCopyFrac
import Verif.ClaimsDasRound
import Verif.ClaimsSpecialDas
import Verif.ClaimsFftRound
import Verif.ClaimsFftRound2
import Verif.ClaimsFftRound3
import Verif.MachConv
import Verif.ClaimsMachConv
import Verif.MachCopy
import Verif.ClaimsMachCopy
import Verif.MachOla
import Verif.ClaimsMachOla
import Verif.ProgEnds
import Verif.ClassesConv
import Verif.ClaimsClassesConv
import Verif.ClaimsClassesAna
import Verif.ClaimsOlaModes
import Verif.HeapUse
import Verif.ClaimsHeap
import Verif.InPlace2
import Verif.ClaimsInPlace2

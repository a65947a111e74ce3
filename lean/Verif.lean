import Verif.Model.Basic
import Verif.Model.Kpack
import Verif.Model.Integral
import Verif.Model.Symbols
import Verif.Model.PackedMonomial
import Verif.Props.Kpack
import Verif.Props.Integral
import Verif.Props.Symbols
import Verif.Props.PackedMonomial
import Verif.Props.Printing
import Verif.Model.DPackedMonomial
import Verif.Props.DPacked
import Verif.Model.Key
import Verif.Lemmas.KeyInst
import Verif.Model.Series
import Verif.Lemmas.SeriesFind
import Verif.Props.SeriesBasic
import Verif.Props.SeriesArith
import Verif.Model.PolyMul
import Verif.Model.ParMul
import Verif.Lemmas.ParSeq
import Verif.Props.PolyMul
import Verif.Model.Poly
import Verif.Model.PowConc
import Verif.Props.Poly
import Verif.Model.PowerSeries
import Verif.Spec.PowerSeries
import Verif.Lemmas.PowerSeries
import Verif.Lemmas.PsPow
import Verif.Props.PowerSeries
import Verif.Model.Subs
import Verif.Spec.Subs
import Verif.Lemmas.Subs
import Verif.Lemmas.SubsInst
import Verif.Props.Subs
import Verif.Model.Spinlock
import Verif.Props.Spinlock
import Verif.Model.Flyweight
import Verif.Props.Flyweight
import Verif.Props.Segmentation
import Verif.Model.Archive
import Verif.Props.Archive
import Verif.Model.Print
import Verif.Lemmas.PrintTex
import Verif.Lemmas.PrintSeries
import Verif.Props.PrintSeries
import Verif.Model.Estimate
import Verif.Spec.Estimate
import Verif.Lemmas.Estimate
import Verif.Props.Estimate
import Verif.Model.Nested
import Verif.Spec.Nested
import Verif.Lemmas.Nested
import Verif.Lemmas.NestedOps
import Verif.Lemmas.NestedSubs
import Verif.Props.Nested
import Verif.Props.NestedInt
import Verif.Model.Calculus1
import Verif.Spec.Calculus1
import Verif.Lemmas.Calculus1
import Verif.Props.Calculus1
import Verif.Model.Program
import Verif.Spec.Program
import Verif.Lemmas.Program
import Verif.Props.Program
import Verif.Spec.Expr
import Verif.Lemmas.Expr
import Verif.Props.Expr
import Verif.Model.PowTbb
import Verif.Spec.PowLive
import Verif.Props.PowLive
import Verif.Model.ByteSize
import Verif.Props.ByteSize
import Verif.Model.PsSubs
import Verif.Lemmas.PsSubs
import Verif.Props.PsSubs
import Verif.Model.PsProgram
import Verif.Spec.PsProgram
import Verif.Lemmas.PsProgram
import Verif.Props.PsProgram
import Verif.Props.PsProgramOps
import Verif.Props.PrintPs
import Verif.Model.Intern
import Verif.Spec.Intern
import Verif.Lemmas.Intern
import Verif.Props.Intern
import Verif.Model.Cmd
import Verif.Spec.Cmd
import Verif.Lemmas.Cmd
import Verif.Props.ProgramOps
import Verif.Props.Cmd
import Verif.Props.CmdPs
import Verif.Spec.Safety
import Verif.Props.Safety
import Verif.Props.SafetyMore
import Verif.Model.CxxCf
import Verif.Spec.CxxCf
import Verif.Lemmas.CxxCf
import Verif.Props.CxxCf
import Verif.Lemmas.CxxDef
import Verif.Spec.CxxDef
import Verif.Lemmas.CxxDefMul
import Verif.Props.CxxDef
import Verif.Spec.RawCf
import Verif.Lemmas.RawCf
import Verif.Lemmas.RawOps
import Verif.Lemmas.RawOps2
import Verif.Props.RawCf
import Verif.Spec.RawMul
import Verif.Lemmas.RawMul
import Verif.Props.RawMul
import Verif.Model.Types
import Verif.Spec.Types
import Verif.Lemmas.Types
import Verif.Props.Types
import Verif.Model.Xoroshiro
import Verif.Lemmas.Xoroshiro
import Verif.Lemmas.XoroPeriod
import Verif.Lemmas.XoroCount
import Verif.Props.Xoroshiro
import Verif.Spec.RawCalc
import Verif.Lemmas.RawCalc
import Verif.Props.RawCalc
import Verif.Spec.RawPow
import Verif.Lemmas.RawPow
import Verif.Props.RawPow
import Verif.Spec.RawPs
import Verif.Spec.RawSubs
import Verif.Lemmas.RawPs
import Verif.Lemmas.RawSubs
import Verif.Lemmas.RawPsSubs
import Verif.Props.RawPs
import Verif.Props.RawSubs
import Verif.Props.RawPsSubs
import Verif.Model.TypesCalc
import Verif.Spec.TypesCalc
import Verif.Lemmas.TypesCalc
import Verif.Props.TypesCalc
import Verif.Model.NestedExpr
import Verif.Spec.NestedExpr
import Verif.Lemmas.NestedExpr
import Verif.Props.NestedExpr
import Verif.Model.PsCalculus1
import Verif.Lemmas.PsCalculus1
import Verif.Props.PsCalculus1
import Verif.Model.Destroy
import Verif.Spec.TabLim
import Verif.Lemmas.TabLim
import Verif.Props.Destroy
import Verif.Lemmas.ProgLim
import Verif.Lemmas.TabLimPoly
import Verif.Spec.Flow
import Verif.Lemmas.FlowLim
import Verif.Props.DestroyProg
import Verif.Props.DestroyFlow
import Verif.Model.Reserve
import Verif.Lemmas.Reserve
import Verif.Props.Reserve
import Verif.Spec.Defined
import Verif.Lemmas.Defined
import Verif.Props.Defined

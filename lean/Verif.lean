import Verif.Props.IntMath
import Verif.Props.Primes
import Verif.Props.Bits
import Verif.Props.Psdes
import Verif.Props.IntMod
import Verif.Props.FacInfo
import Verif.Props.F2Poly
import Verif.Props.F2PolyMod
import Verif.Props.IntRat
import Verif.Props.CPoly
import Verif.Props.CMod
import Verif.Props.TMatrix
import Verif.Props.BitMatrix
import Verif.Props.F2Factor
import Verif.Props.PolyFactor
import Verif.Props.Units
import Verif.Props.LinAlg
import Verif.Props.EDInv
import Verif.Props.MinPoly
import Verif.Props.Convert
import Verif.Props.Text
import Verif.Props.PolyRat
import Verif.Props.Lists
import Verif.Props.Cyclo
import Verif.Props.Random
import Verif.Props.Scan
import Verif.Props.Expr
import Verif.Props.FpnMod
import Verif.Props.RandIrr
import Verif.Props.PolyText
import Verif.Props.PolyText2
import Verif.Props.PolyText3
import Verif.Props.VecText
import Verif.Props.VecText2
import Verif.Props.BitText
import Verif.Props.ExprPoly
import Verif.Props.ExprMat
import Verif.Props.ExprMatDet
import Verif.Props.PolyRatText
import Verif.Props.Cmd
import Verif.Props.CmdF2
import Verif.Props.CmdFp
import Verif.Props.CmdF2n
import Verif.Props.CmdFpRes
import Verif.Props.CmdF2Res
import Verif.Props.CmdPmRes
import Verif.Props.CmdMat
import Verif.Props.CmdRest
import Verif.Props.CmdCalc
import Verif.Props.CmdCalcRat
import Verif.Props.Program
import Verif.Props.CmdLast
import Verif.Props.FacStore
import Verif.Props.PolyBase
import Verif.Props.PolyStore
import Verif.Props.Elliptic
import Verif.Props.MvPoly
import Verif.Props.Chart
import Verif.Props.VecAlias
import Verif.Props.BitCheck
import Verif.Props.Crt2
import Verif.Props.PolyMat
import Verif.Props.FrobOrbit
import Verif.Props.Zeros
import Verif.Props.CmdRandom
import Verif.Props.CmdCalcRing
import Verif.Props.Diag

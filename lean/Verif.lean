import Verif.Units.Props
import Verif.Scope.Props
import Verif.Names.Props
import Verif.Names.SIProps
import Verif.Consts.Props
import Verif.Pytree.Props
import Verif.Ragged.Props
import Verif.Ragged.OldProps
import Verif.Quant.Props
import Verif.Roots.Props
import Verif.Roots.Round
import Verif.Roots.BatchGrad
import Verif.Roots.Implicit
import Verif.Cosmo.Dist
import Verif.Cosmo.Odeint
import Verif.Cosmo.Dimful
import Verif.Cosmo.Csinc
import Verif.Cosmo.CurvGrad
import Verif.Interp.Grid2dProps
import Verif.Interp.SplineW
import Verif.Interp.Dist
import Verif.Autograd.Classes
import Verif.Autograd.Forward
import Verif.Carlson.GradProps
import Verif.Carlson.LegendreGradProps
import Verif.Carlson.RoundProps
import Verif.Ellred.LambdaR
import Verif.Ellred.PartExp
import Verif.Ellred.PartFrac
import Verif.Ellred.RedModel
import Verif.Ellred.RedRec
import Verif.Ellred.RedIqe
import Verif.Ellred.RedIm
import Verif.Ellred.RedCubic
import Verif.Ellred.RedSwap
import Verif.Ellred.RedQuartic
import Verif.Ellred.RedSpec
import Verif.Ellred.RedProps
import Verif.Ellred.RedDriver
import Verif.Ellred.RedDriverR
import Verif.Ellred.Leibniz
import Verif.Ellred.RedGrad
import Verif.Ellred.Cache
import Verif.Special.GammaProps
import Verif.Special.LogGammaProps
import Verif.Special.HypProps
import Verif.Special.IncGammaCompl
import Verif.Special.GammaIncInvWit
import Verif.Special.GammaIncInvStart
import Verif.Special.DigammaProps
import Verif.Special.TGammaSpec
import Verif.Special.GammaGrad
import Verif.Special.GammaIncGradBad
import Verif.Special.TGammaGrad
import Verif.Special.TGammaRate
import Verif.Dtype.Props
import Verif.Units.LatexProps
import Verif.Units.NameProps
import Verif.Units.NumProps
import Verif.Units.CloseProps
import Verif.PMath.Props
import Verif.Ext.Props
import Verif.Carlson.RoundDProps
import Verif.Carlson.RoundJProps
import Verif.Quant.BindProps
import Verif.Quant.LinAlg
import Verif.Quant.LinAlgLU
import Verif.Quant.SpecialProps
import Verif.Quant.RegProps
import Verif.Quant.FloatProps
import Verif.Interp.BatchLin
import Verif.Interp.FloatProps
import Verif.Interp.FloatNd
import Verif.Interp.FloatSplineProps
import Verif.Interp.FloatDistProps
import Verif.Interp.Merge
import Verif.Interp.BatchNd
import Verif.Interp.BatchSpline
import Verif.Interp.BatchDist
import Verif.Ellred.DriverGradProps
import Verif.Ellred.TapeGrad
import Verif.Ellred.CarlsonGrad
import Verif.Ellred.CodeDist
import Verif.Ellred.ComplexDRun
import Verif.Ellred.CodeAbs
import Verif.Ellred.TapeLook
import Verif.Ellred.ComplexJRun
import Verif.Ellred.ComplexJZero
import Verif.Ellred.ComplexG
import Verif.Ellred.ComplexLeg
import Verif.Ellred.CodeLook
import Verif.Ragged.QuantProps

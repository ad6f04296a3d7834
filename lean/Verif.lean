import Verif.Props.Hod
import Verif.Props.HodFloat
import Verif.Props.Hod2
import Verif.Props.Exclusion
import Verif.Props.Exclusion2
import Verif.Props.Populate
import Verif.Props.Tools
import Verif.Props.Tools2
import Verif.Props.Profiles3
import Verif.Props.Profiles4
import Verif.Props.Profiles5
import Verif.Props.Concentration
import Verif.Props.Concentration2
import Verif.Props.Bias
import Verif.Props.Bias2
import Verif.Props.HaloModel4
import Verif.Props.HaloModel5
import Verif.Props.Spectra
import Verif.Props.Components
import Verif.Props.FindSmooth
import Verif.Props.FindSharp
import Verif.Props.Cross
import Verif.Props.IntegrateCorr
import Verif.Props.Wdm
import Verif.Props.Framework
import Verif.Props.Colossus
import Verif.Props.Pairing
import Verif.Props.IntegrateCorr2
import Verif.Props.Tighten
import Verif.Props.Observables
import Verif.Props.ScaleDep
import Verif.Props.ScaleDep2
import Verif.Props.Converge
import Verif.Props.Converge2
import Verif.Props.Tighten2
import Verif.Props.Framework2
import Verif.Props.Angular
import Verif.Props.Converge3
import Verif.Props.Cross2
import Verif.Lemmas.Tame2
import Verif.Props.Mesh2
import Verif.Props.Batch
import Verif.Props.Bound2
import Verif.Props.Converge4
import Verif.Props.Converge5
import Verif.Props.Spline
import Verif.Props.Sample
import Verif.Props.GenericProfile
import Verif.Props.Outside
import Verif.Props.Projected
import Verif.Props.Catalogue
import Verif.Props.HodSign
import Verif.Props.ExclusionBounds
import Verif.Props.Documented
import Verif.Props.Documented2
import Verif.Props.Outside2
import Verif.Props.Bound
import Verif.Props.Ogata
import Verif.Props.Hankel
import Verif.Props.CodeEnv
import Verif.Props.RoundTrip
import Verif.Model.Settings
import Verif.Props.Settings
import Verif.Props.Converge6
import Verif.Props.Mesh
import Verif.Props.WdmConc
import Verif.Props.TwoHaloPower
import Verif.Lemmas.Spline3
import Verif.Props.Spline3
import Verif.Props.GenericProfile2
import Verif.Props.Positive
import Verif.Model.IntInput
import Verif.Props.IntInput
import Verif.Props.Documented3
import Verif.Props.Threshold
import Verif.Props.Threshold2
import Verif.Props.Resolution
import Verif.Props.Scaling
import Verif.Props.Bound3
import Verif.Props.Concentrated
import Verif.Props.Units
import Verif.Props.Units2
import Verif.Props.Units3
import Verif.Props.Units4
import Verif.Props.Units5
import Verif.Props.Units6
import Verif.Props.Units7
import Verif.Props.Stability
import Verif.Props.MassRange
import Verif.Props.Resolution2
import Verif.Props.Bound4

import Verif.Base.BX
import Verif.Base.CReal
import Verif.Base.FX
import Verif.Base.Out
import Verif.Base.XR
import Verif.Lemmas.Agree
import Verif.Lemmas.Alias
import Verif.Lemmas.Balance
import Verif.Lemmas.CholGen
import Verif.Lemmas.CholRound
import Verif.Lemmas.Chord
import Verif.Lemmas.DetRound
import Verif.Lemmas.EigVec
import Verif.Lemmas.EigVec2
import Verif.Lemmas.ErfBound
import Verif.Lemmas.ErfFit
import Verif.Lemmas.ErfTab
import Verif.Lemmas.ExpFix
import Verif.Lemmas.Fusion
import Verif.Lemmas.Gauss
import Verif.Lemmas.Gauss2
import Verif.Lemmas.House
import Verif.Lemmas.LocusDef
import Verif.Lemmas.LocusGeo
import Verif.Lemmas.LocusPair
import Verif.Lemmas.LocusReal
import Verif.Lemmas.LocusTab
import Verif.Lemmas.LocusTrip
import Verif.Lemmas.LocusVal
import Verif.Lemmas.Matrices
import Verif.Lemmas.McBox
import Verif.Lemmas.Minors
import Verif.Lemmas.MultGen
import Verif.Lemmas.NoChk
import Verif.Lemmas.NoChk2
import Verif.Lemmas.NoChk3
import Verif.Lemmas.NoChk4
import Verif.Lemmas.NoChk5
import Verif.Lemmas.NoChk6
import Verif.Lemmas.Permanent
import Verif.Lemmas.Physics
import Verif.Lemmas.PolyBound
import Verif.Lemmas.QRConv
import Verif.Lemmas.QRGen
import Verif.Lemmas.Range
import Verif.Lemmas.Round
import Verif.Lemmas.Rref
import Verif.Lemmas.Safe
import Verif.Lemmas.Sort
import Verif.Lemmas.SvdRun
import Verif.Lemmas.VecReal
import Verif.Lemmas.Vectors
import Verif.Lemmas.XRNan
import Verif.Model.Alias
import Verif.Model.AliasDec
import Verif.Model.AliasMat
import Verif.Model.AliasRed
import Verif.Model.Arm
import Verif.Model.Attitude
import Verif.Model.Calibration
import Verif.Model.Chemistry
import Verif.Model.ColorTables
import Verif.Model.Colorimetry
import Verif.Model.Drivers
import Verif.Model.Fusion
import Verif.Model.Instr
import Verif.Model.Interp
import Verif.Model.Kalman
import Verif.Model.MatDecomp
import Verif.Model.Matrices
import Verif.Model.Measurement
import Verif.Model.NoChk
import Verif.Model.NoChkClr
import Verif.Model.NoChkFus
import Verif.Model.NoChkOrient
import Verif.Model.NoChkStat
import Verif.Model.Physics
import Verif.Model.Print
import Verif.Model.Probability
import Verif.Model.Quaternions
import Verif.Model.Shell
import Verif.Model.Statistics
import Verif.Model.Threads
import Verif.Model.Vectors
import Verif.Props.Alias1
import Verif.Props.Alias10
import Verif.Props.Alias2
import Verif.Props.Alias3
import Verif.Props.Alias4
import Verif.Props.Alias5
import Verif.Props.Alias6
import Verif.Props.Alias7
import Verif.Props.Alias8
import Verif.Props.Alias9
import Verif.Props.Arm1
import Verif.Props.Attitude
import Verif.Props.Augm2
import Verif.Props.Augm3
import Verif.Props.Augm4
import Verif.Props.Balance
import Verif.Props.Balance2
import Verif.Props.Calib1
import Verif.Props.Calib2
import Verif.Props.Calib3
import Verif.Props.Calib4
import Verif.Props.Calib5
import Verif.Props.CctTrip
import Verif.Props.Chemistry
import Verif.Props.Color1
import Verif.Props.Color2
import Verif.Props.Color3
import Verif.Props.Color4
import Verif.Props.Color5
import Verif.Props.Color6
import Verif.Props.Color7
import Verif.Props.Color8
import Verif.Props.Decomp1
import Verif.Props.Decomp2
import Verif.Props.Decomp3
import Verif.Props.Decomp4
import Verif.Props.Decomp5
import Verif.Props.Drivers
import Verif.Props.Eigen1
import Verif.Props.Eigen2
import Verif.Props.Eigen3
import Verif.Props.Eigen4
import Verif.Props.Eigen5
import Verif.Props.Eigen6
import Verif.Props.Eigen7
import Verif.Props.ErfInv
import Verif.Props.FusConv
import Verif.Props.FusMadg
import Verif.Props.FusMadg2
import Verif.Props.FusMadg3
import Verif.Props.Fusion1
import Verif.Props.Fusion2
import Verif.Props.Fusion3
import Verif.Props.Fusion4
import Verif.Props.Fusion5
import Verif.Props.Interp1
import Verif.Props.Interp2
import Verif.Props.InterpAcc
import Verif.Props.Inv2
import Verif.Props.Inv3
import Verif.Props.Inv4
import Verif.Props.Kalman1
import Verif.Props.Kalman2
import Verif.Props.Kalman3
import Verif.Props.Kalman4
import Verif.Props.Matrices1
import Verif.Props.Matrices2
import Verif.Props.Matrices3
import Verif.Props.Matrices4
import Verif.Props.Matrices5
import Verif.Props.Matrices6
import Verif.Props.McTrip
import Verif.Props.Misc
import Verif.Props.NoChk1
import Verif.Props.NoChk2
import Verif.Props.NoChk3
import Verif.Props.NoChkCal
import Verif.Props.NoChkClr
import Verif.Props.NoChkFus
import Verif.Props.NoChkFus2
import Verif.Props.NoChkOrient
import Verif.Props.NoChkStat
import Verif.Props.Phys1
import Verif.Props.Phys2
import Verif.Props.Phys3
import Verif.Props.Phys4
import Verif.Props.Phys5
import Verif.Props.Prob1
import Verif.Props.Prob2
import Verif.Props.Prob3
import Verif.Props.Prob4
import Verif.Props.Quat1
import Verif.Props.Quat2
import Verif.Props.Quat3
import Verif.Props.Quat4
import Verif.Props.Quat5
import Verif.Props.Quat6
import Verif.Props.Range1
import Verif.Props.Range2
import Verif.Props.Range3
import Verif.Props.Round1
import Verif.Props.Round10
import Verif.Props.Round11
import Verif.Props.Round12
import Verif.Props.Round13
import Verif.Props.Round14
import Verif.Props.Round15
import Verif.Props.Round16
import Verif.Props.Round17
import Verif.Props.Round18
import Verif.Props.Round19
import Verif.Props.Round2
import Verif.Props.Round20
import Verif.Props.Round21
import Verif.Props.Round3
import Verif.Props.Round4
import Verif.Props.Round5
import Verif.Props.Round6
import Verif.Props.Round7
import Verif.Props.Round8
import Verif.Props.Round9
import Verif.Props.Safe1
import Verif.Props.Safe10
import Verif.Props.Safe11
import Verif.Props.Safe12
import Verif.Props.Safe2
import Verif.Props.Safe3
import Verif.Props.Safe4
import Verif.Props.Safe4b
import Verif.Props.Safe4c
import Verif.Props.Safe4d
import Verif.Props.Safe4e
import Verif.Props.Safe4f
import Verif.Props.Safe4g
import Verif.Props.Safe5
import Verif.Props.Safe6
import Verif.Props.Safe7
import Verif.Props.Safe8
import Verif.Props.Safe9
import Verif.Props.Shell1
import Verif.Props.Sort
import Verif.Props.Sort2
import Verif.Props.Sort3
import Verif.Props.Stat1
import Verif.Props.Stat2
import Verif.Props.Stat3
import Verif.Props.Stat4
import Verif.Props.Stat5
import Verif.Props.Stat6
import Verif.Props.Stat7
import Verif.Props.StatRobust
import Verif.Props.StatUnits
import Verif.Props.Svd1
import Verif.Props.Svd2
import Verif.Props.Svd3
import Verif.Props.Svd4
import Verif.Props.Threads
import Verif.Props.Vectors1
import Verif.Props.Vectors2
import Verif.Props.Vectors3
import Verif.Spec.Accepted
import Verif.Spec.Agree
import Verif.Spec.Color
import Verif.Spec.Elim
import Verif.Spec.Fusion
import Verif.Spec.Ieee
import Verif.Spec.Interleave
import Verif.Spec.Interp
import Verif.Spec.Kalman
import Verif.Spec.Matrix
import Verif.Spec.Nearest
import Verif.Spec.Physics
import Verif.Spec.Probability
import Verif.Spec.Quaternion
import Verif.Spec.Rounding
import Verif.Spec.Safe
import Verif.Spec.SafeFus
import Verif.Spec.Statistics

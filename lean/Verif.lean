import Verif.Props.Words
import Verif.Props.Lines
import Verif.Props.Comments
import Verif.Props.CommentsExact
import Verif.Props.Lookup
import Verif.Props.Grouping
import Verif.Props.GCodeObj
import Verif.Props.BlockPrint
import Verif.Props.LinePrint
import Verif.Props.Position
import Verif.Props.MachineMove
import Verif.Props.Canned
import Verif.Props.Modes
import Verif.Props.Units
import Verif.Props.Modal
import Verif.Props.Order
import Verif.Props.Copy
import Verif.Props.ModePrint
import Verif.Props.Abs2Rel
import Verif.Props.Expand
import Verif.Props.Omit
import Verif.Props.Arc
import Verif.Props.ArcPath
import Verif.Props.ArcAccept
import Verif.Props.Crop
import Verif.Props.CropPreamble
import Verif.Props.Norm
import Verif.Lemmas.Near
import Verif.Lemmas.NearRead
import Verif.Props.NormExpand
import Verif.Props.NormFinish
import Verif.Props.Texts
import Verif.Props.Dialect
import Verif.Props.Float
import Verif.Props.FloatMove
import Verif.Props.Instances
import Verif.Props.Instances2
import Verif.Props.Instances3
import Verif.Props.Instances4
import Verif.Model.NormArc
import Verif.Lemmas.Off
import Verif.Props.NormArc
import Verif.Props.NormArcPath
import Verif.Props.NormArcOpts
import Verif.Props.NormArcSample
import Verif.Props.Construct
import Verif.Props.NormRemove
import Verif.Props.NormInvalid
import Verif.Model.NormArgs
import Verif.Props.NormArgs
import Verif.Props.NormNone
import Verif.Model.Heap
import Verif.Lemmas.Heap
import Verif.Props.Shared
import Verif.Props.NormFormat
import Verif.Props.ArcFollow
import Verif.Props.ArcFollowRel
import Verif.Props.Failures
import Verif.Props.Shift
import Verif.Props.Layout
import Verif.Props.LineNumbers
import Verif.Props.NormOutcome
import Verif.Props.NormCleaned
import Verif.Props.NormShown
import Verif.Props.CropOpen
import Verif.Props.Published
import Verif.Props.Unheeded
import Verif.Props.CropResume
import Verif.Props.Scale
import Verif.Props.SignedZero
import Verif.Props.CropPieces
import Verif.Props.NormThenCrop
import Verif.Props.ArcLength
import Verif.Props.ArcSymmetry
import Verif.Model.Unicode
import Verif.Props.Unicode
import Verif.Props.ArcOutcome
import Verif.Model.File
import Verif.Model.ModeText
import Verif.Props.Files
import Verif.Props.StartMode
import Verif.Props.ModeOnly
import Verif.Props.ArcScale
import Verif.Model.Quat
import Verif.Props.Quaternions
import Verif.Model.Chars
import Verif.Model.ClassDocs
import Verif.Model.Registry
import Verif.Lemmas.ClassChars
import Verif.Spec.Listings
import Verif.Props.Listing
import Verif.Props.UserClasses
import Verif.Props.NormAgain
import Verif.Props.NormArcAgain
import Verif.Props.NormShape
import Verif.Props.RepoTests
import Verif.Props.Messages
import Verif.Props.CycleCorners
import Verif.Props.FailedLine
import Verif.Props.ArcHelix
import Verif.Props.NormArcStep
import Verif.Props.PositionText
import Verif.Props.NormArcProgram
import Verif.Props.NormCycleProgram
import Verif.Lemmas.Box
import Verif.Lemmas.BoxHole
import Verif.Props.NormBox
import Verif.Props.NormArcBox
import Verif.Props.NormArcInside
import Verif.Props.ArcLevel
import Verif.Props.ArcCentre
import Verif.Props.ArcMean
import Verif.Props.ArcUnique

import Verif.Props.Time
import Verif.Props.Registry
import Verif.Props.Files
import Verif.Props.Simple
import Verif.Props.Colors
import Verif.Props.Vectors
import Verif.Props.Composites
import Verif.Props.Timeline
import Verif.Props.Waypoints
import Verif.Props.WaypointRules
import Verif.Props.Animate
import Verif.Props.Resaved
import Verif.Props.Groups
import Verif.Props.Find
import Verif.Props.Layers
import Verif.Props.Animation
import Verif.Props.Replacer
import Verif.Props.Bywords
import Verif.Props.Adjust
import Verif.Props.Dom
import Verif.Props.DomNode
import Verif.Compare
import Verif.Props.Compare
import Verif.Props.Subscripts
import Verif.Props.Assign
import Verif.Props.Failures
import Verif.XmlText
import Verif.Blank
import Verif.Props.XmlText
import Verif.Props.NewAnimation
import Verif.Props.Reading
import Verif.Props.Convert
import Verif.Props.SaveOpen
import Verif.Text
import Verif.Spec.Literals
import Verif.Props.AssignObjects
import Verif.Props.Text
import Verif.Spec.Legal
import Verif.Lemmas.Legal
import Verif.Props.Legal
import Verif.Program
import Verif.Spec.Program
import Verif.Lemmas.Place
import Verif.Props.Program
import Verif.Spec.BywordsProgram
import Verif.Props.BywordsProgram
import Verif.Spec.Frame
import Verif.Lemmas.Nameless
import Verif.Props.Frame
import Verif.LayerText
import Verif.Spec.LayerText
import Verif.Lemmas.LayerText
import Verif.Props.LayerText
import Verif.Scan
import Verif.Spec.Scan
import Verif.Lemmas.Scan
import Verif.Props.Scan
import Verif.Views
import Verif.Props.Views
import Verif.Props.FindValue
import Verif.Props.TimeDecimal
import Verif.Props.ColorText
import Verif.Props.FileDiff
import Verif.Props.Twice
import Verif.Props.TimeText
import Verif.KeyframeText
import Verif.Props.KeyframeText
import Verif.Props.HeaderSaved
import Verif.Props.DomInsert
import Verif.Props.Documents
import Verif.Props.FindAttr
import Verif.Props.ReadAgain
import Verif.Spec.BywordsAgain
import Verif.Lemmas.Untext
import Verif.Props.BywordsAgain
import Verif.Props.FindWays
import Verif.Spec.Shortcuts
import Verif.Props.Shortcuts
import Verif.Props.FindTime
import Verif.Props.TimeFraction
import Verif.Props.BywordsSaved
import Verif.Props.Killed
import Verif.Props.Concurrent
import Verif.Props.AtOnce
import Verif.Props.Writing
import Verif.Props.Moved
import Verif.Props.TimeBefore
import Verif.Props.TimeRate
import Verif.Props.RateSaved
import Verif.Props.OwnTimeline
import Verif.Props.PutBack
import Verif.Props.AnyOrder
import Verif.Props.Opening
import Verif.Props.ReplacerAtOnce
import Verif.Props.Stepwise
import Verif.Props.DiskFull
import Verif.Props.Interrupted
import Verif.Props.Session
import Verif.Props.NonFinite
import Verif.Props.SignedZero
import Verif.Props.GradientEq
import Verif.Props.RateChange
import Verif.Props.GroupLists
import Verif.Props.MovedLayer
import Verif.Props.Loops
import Verif.Props.Reorder
import Verif.Props.ReorderSome
import Verif.Props.WpLoops
import Verif.Props.MovedFound
import Verif.Props.LayerMember
import Verif.Props.FoundLoops
import Verif.Props.DescLoops
import Verif.DomParent
import Verif.Props.MovedParent
import Verif.Props.InsertLoops
import Verif.DomAttr
import Verif.Spec.AttrLoops
import Verif.Props.AttrLoops
import Verif.Spec.ParamLoops
import Verif.Props.ParamLoops
import Verif.Props.OwnLoops
import Verif.DomSearch
import Verif.Props.SearchLoops
import Verif.DomUntil
import Verif.Props.UntilFound

import Verif.Model.Fluent
import Verif.Model.Modifier
import Verif.Model.Pretty
import Verif.Model.Set
import Verif.Model.Cache
import Verif.Props.Escape
import Verif.Props.Pattern
import Verif.Props.Entry
import Verif.Props.Cache
import Verif.Props.Modifier
import Verif.Props.Valid
import Verif.Props.Query
import Verif.Props.Recursive
import Verif.Props.Filter
import Verif.Props.Set
import Verif.Props.Place
import Verif.Props.Attr
import Verif.Props.Append
import Verif.Props.Prolog
import Verif.Props.Options
import Verif.Props.Order
import Verif.Props.Value
import Verif.Props.Limit
import Verif.Lemmas.Map
import Verif.Lemmas.Fluent
import Verif.Props.Fluent
import Verif.Spec.Raw
import Verif.Lemmas.Raw
import Verif.Lemmas.RawForest
import Verif.Props.Raw
import Verif.Props.RawCheck
import Verif.Spec.Panic
import Verif.Lemmas.Panic
import Verif.Lemmas.Bounds
import Verif.Props.Panic
import Verif.Props.EditOptions
import Verif.Lemmas.TripOpt
import Verif.Props.TripOptions
import Verif.Props.SetTyped
import Verif.Props.Ask
import Verif.Props.Mods
import Verif.Props.Loose
import Verif.Props.Shape
import Verif.Props.AskBy
import Verif.Props.Size
import Verif.Check.Get
import Verif.Check.Edit
import Verif.Check.Valid
import Verif.Check.Report
import Verif.Props.Condition
import Verif.Props.Excess
import Verif.Props.Pretty
import Verif.Props.Chain
import Verif.Props.Errors
import Verif.Props.Documented
import Verif.Props.Section
import Verif.Props.Commute
import Verif.Props.Undo
import Verif.Props.Copy
import Verif.Props.Steps
import Verif.Props.Hops
import Verif.Props.Slots
import Verif.Props.SlotsAttr
import Verif.Props.PanicSet
import Verif.Props.Beyond
import Verif.Props.Group
import Verif.Props.Labels
import Verif.Spec.Dict
import Verif.Lemmas.Dict
import Verif.Props.Dict
import Verif.Props.DictMap
import Verif.Spec.Float
import Verif.Lemmas.Float
import Verif.Props.Decimal
import Verif.Spec.Prefix
import Verif.Lemmas.Prefix
import Verif.Props.Prefix
import Verif.Spec.White
import Verif.Lemmas.White
import Verif.Props.White
import Verif.Model.Fresh
import Verif.Lemmas.Fresh
import Verif.Lemmas.FreshSame
import Verif.Props.Fresh
import Verif.Model.FreshEdit
import Verif.Spec.FreshEdit
import Verif.Lemmas.FreshEdit
import Verif.Props.FreshEdit
import Verif.Props.DictBuild
import Verif.Spec.Grove
import Verif.Lemmas.Grove
import Verif.Props.Grove
import Verif.Lemmas.GroveShape
import Verif.Props.GroveReach
import Verif.Check.Readme
import Verif.Check.Docs
import Verif.Props.ChainMods
import Verif.Props.Bar
import Verif.Props.Astray
import Verif.Props.AstrayOpt
import Verif.Props.Sense
import Verif.Props.SenseBy
import Verif.Props.Trail
import Verif.Props.Spare
import Verif.Props.ModsMid
import Verif.Props.ModsOpt
import Verif.Props.Registry
import Verif.Props.Collect
import Verif.Props.CollectBy
import Verif.Props.CollectDeep
import Verif.Props.SenseOn
import Verif.Props.Ordinary
import Verif.Props.Work
import Verif.Props.Unlimited
import Verif.Props.Keep
import Verif.Props.ModsList
import Verif.Props.Series
import Verif.Props.First
import Verif.Props.Apart
import Verif.Props.AppendAny
import Verif.Props.UndoAny
import Verif.Props.ApartMore
import Verif.Props.GroupAny
import Verif.Props.LabelsAny
import Verif.Props.TypedAny
import Verif.Props.FirstAttr
import Verif.Props.WorkCounts
import Verif.Props.FreshVisits
import Verif.Props.CopyAny
import Verif.Props.OwnText
import Verif.Props.ConditionAll
import Verif.Props.Roomy
import Verif.Props.PrefixOptions
import Verif.Props.DictOptions
import Verif.Props.PathRefused
import Verif.Props.TypedAttr
import Verif.Props.Children
import Verif.Props.Attach
import Verif.Props.Meaning
import Verif.Props.MeaningMany
import Verif.Props.Slices
import Verif.Props.Crowded
import Verif.Props.Rewritten
import Verif.Props.Inner

import Verif.Props.Image
import Verif.Props.ImageFile
import Verif.Props.Box
import Verif.Props.Features
import Verif.Props.DzDensity
import Verif.Props.Alternations
import Verif.Props.Zone
import Verif.Props.Relationship
import Verif.Props.Ocr2
import Verif.Props.Datas
import Verif.Props.Filter
import Verif.Props.FilterAll
import Verif.Props.Spell
import Verif.Props.DictIO
import Verif.Props.Glyphs
import Verif.Props.DatasIO
import Verif.Props.WordLines
import Verif.Props.Normalize
import Verif.Props.Text
import Verif.Props.Replace
import Verif.Props.Reindex
import Verif.Props.ImageContext
import Verif.Props.ExtractText
import Verif.Props.Setup
import Verif.Props.Program
import Verif.Props.Tools
import Verif.Props.Learn
import Verif.Props.Damage
import Verif.Props.NormalizeOrder
import Verif.Props.SortFree
import Verif.Props.Command
import Verif.Props.Session
import Verif.Props.Pipeline
import Verif.Props.Margins
import Verif.Props.MarginsLearn
import Verif.Props.BoxTool
import Verif.Model.ImageText
import Verif.Spec.ImageText
import Verif.Proofs.ImageText
import Verif.Props.ImageText
import Verif.Model.Text8
import Verif.Spec.Text8
import Verif.Proofs.Text8
import Verif.Props.Text8
import Verif.Model.Text6
import Verif.Spec.Text6
import Verif.Proofs.Text6
import Verif.Proofs.Letter6
import Verif.Proofs.Sort6
import Verif.Proofs.Word6
import Verif.Proofs.Read6
import Verif.Proofs.Order6
import Verif.Props.Text6
import Verif.Spec.Line6
import Verif.Proofs.Line6
import Verif.Props.Line6
import Verif.Proofs.LineRun
import Verif.Model.Letter8
import Verif.Spec.Letter8
import Verif.Proofs.Letter8
import Verif.Proofs.Read8
import Verif.Proofs.Program8
import Verif.Props.Letter8
import Verif.Model.Double
import Verif.Proofs.Double8
import Verif.Props.Double
import Verif.Spec.Learn6
import Verif.Proofs.Learn6
import Verif.Props.Learn6
import Verif.Spec.Rounding
import Verif.Proofs.Rounding
import Verif.Props.Rounding
import Verif.Tests.Project
import Verif.Spec.Learning
import Verif.Props.Learning
import Verif.Spec.Beside
import Verif.Proofs.Beside
import Verif.Props.Beside
import Verif.Spec.Supplement
import Verif.Proofs.Supplement
import Verif.Props.Supplement
import Verif.Spec.Alike
import Verif.Proofs.Alike
import Verif.Props.Alike
import Verif.Props.ShownAlike
import Verif.Props.Alike6
import Verif.Spec.Parts6
import Verif.Proofs.Parts6
import Verif.Props.Parts6
import Verif.Props.Parts
import Verif.Spec.Dictionary
import Verif.Proofs.Dictionary
import Verif.Props.Dictionary
import Verif.Spec.ByComparison
import Verif.Proofs.Shown6
import Verif.Props.More6
import Verif.Proofs.More6
import Verif.Spec.SortFree6
import Verif.Proofs.SortFree6
import Verif.Props.SortFree6
import Verif.Props.LessonOrder
import Verif.Proofs.Again6
import Verif.Props.Again6
import Verif.Spec.Drawing
import Verif.Props.Drawing
import Verif.Spec.AnyDict
import Verif.Proofs.AnyDict
import Verif.Props.AnyDict
import Verif.Spec.AnyDatas
import Verif.Proofs.AnyDatas
import Verif.Props.AnyDatas
import Verif.Spec.AnyGlyphs
import Verif.Proofs.AnyGlyphs
import Verif.Props.AnyGlyphs
import Verif.Spec.AnyInfos
import Verif.Proofs.AnyInfos
import Verif.Props.AnyInfos
import Verif.Spec.AnyDatas6
import Verif.Proofs.AnyDatas6
import Verif.Props.AnyDatas6
import Verif.Proofs.AnyDatas8
import Verif.Props.AnyDatas8
import Verif.Spec.Grown
import Verif.Proofs.Grown
import Verif.Props.Grown
import Verif.Spec.Enlarged
import Verif.Proofs.Enlarged
import Verif.Props.Enlarged
import Verif.Spec.EnlargedLine
import Verif.Proofs.EnlargedLine
import Verif.Props.EnlargedLine
import Verif.Spec.Ends
import Verif.Proofs.EndsBase
import Verif.Proofs.EndsFeatures
import Verif.Proofs.Ends
import Verif.Proofs.Ends6
import Verif.Proofs.EndsTools
import Verif.Proofs.EndsDatas
import Verif.Props.Ends
import Verif.Props.EndsTools
import Verif.Proofs.NormalizeParts
import Verif.Props.NormalizeParts
import Verif.Props.LearningParts
import Verif.Spec.Compiled
import Verif.Proofs.Compiled
import Verif.Props.Canonical
import Verif.Spec.Threshold
import Verif.Props.Threshold
import Verif.Spec.Turned
import Verif.Proofs.Turned
import Verif.Props.Turned
import Verif.Proofs.TurnedZones
import Verif.Props.TurnedZones
import Verif.Props.CommandArgs
import Verif.Spec.Shell
import Verif.Proofs.RunsInParts
import Verif.Props.RunsInParts
import Verif.Props.BoxEq
import Verif.Props.BoxRefused

import Verif.Base
import Verif.Text.Lemmas
import Verif.Reader.Props
import Verif.Reader.FreeProps
import Verif.Keys.Props
import Verif.Keys.FormulaProps
import Verif.Header.Props
import Verif.Offset.Props
import Verif.Version.Pkg1Props
import Verif.Version.Pkg2Props
import Verif.Directory.Props
import Verif.Property.Props
import Verif.Image.Props
import Verif.Image.IvProps
import Verif.Pixel.PlainProps
import Verif.Png.Props
import Verif.Media.SoundProps
import Verif.Media.LuaProps
import Verif.Value.CastProps
import Verif.Value.VectorProps
import Verif.Value.JsonProps
import Verif.Value.JsonHeapModel
import Verif.Value.JsonHeapProps
import Verif.Ms.SnowProps
import Verif.Ms.SnowRdProps
import Verif.Ms.ChaRdProps
import Verif.Ms.FileProps
import Verif.Ms.ImageProps
import Verif.Node.PathProps
import Verif.Node.UolProps
import Verif.Node.SplitProps
import Verif.Node.MergeProps
import Verif.Node.ParseProps
import Verif.Node.WalkProps
import Verif.Node.WalkPathProps
import Verif.Node.FindProps
import Verif.File.Props
import Verif.File.CacheProps
import Verif.File.Pkg1Props
import Verif.File.GuessModel
import Verif.File.GuessSpec
import Verif.File.GuessLemmas
import Verif.File.GuessProps
import Verif.File.GuessKeys
import Verif.File.GuessKeyProps
import Verif.File.GuessEdgeProps
import Verif.File.GuessExamples
import Verif.File.IvModel
import Verif.File.IvSpec
import Verif.File.IvLemmas
import Verif.File.IvProps
import Verif.File.IvExamples
import Verif.Resolve.Props
import Verif.Node.PictureModel
import Verif.Node.PictureSpec
import Verif.Node.PictureLemmas
import Verif.Node.MapsLemmas
import Verif.Node.PictureProps
import Verif.Node.PictureExamples
import Verif.Node.HistorySpec
import Verif.Node.HistoryLemmas
import Verif.Node.HistoryProps
import Verif.Whole.Model
import Verif.Whole.Spec
import Verif.Whole.Lemmas
import Verif.Whole.StateLemmas
import Verif.Whole.Props
import Verif.Whole.Examples
import Verif.Whole.DirectModel
import Verif.Whole.DirectSpec
import Verif.Whole.DirectLemmas
import Verif.Whole.DirectProps
import Verif.File.ShareModel
import Verif.File.ShareSpec
import Verif.File.ShareLemmas
import Verif.File.ShareProps
import Verif.Value.SerdeModel
import Verif.Value.SerdeSpec
import Verif.Value.SerdeLemmas
import Verif.Value.SerdeProps
import Verif.Value.SerdeRangeSpec
import Verif.Value.SerdeRangeProps
import Verif.Media.PayloadModel
import Verif.Media.PayloadSpec
import Verif.Media.PayloadLemmas
import Verif.Media.PayloadProps
import Verif.Whole.MsModel
import Verif.Whole.MsSpec
import Verif.Whole.MsLemmas
import Verif.Whole.MsProps
import Verif.Whole.OpenModel
import Verif.Whole.OpenSpec
import Verif.Whole.OpenProps
import Verif.Whole.OpenExamples
import Verif.Mode.Rel
import Verif.Mode.Reader
import Verif.Mode.Image
import Verif.Mode.Directory
import Verif.Mode.File
import Verif.Mode.Payload
import Verif.Mode.Whole
import Verif.Mode.Nodes
import Verif.Mode.Spec
import Verif.Mode.Props
import Verif.Mode.Examples
import Verif.Whole.WalkSpec
import Verif.Whole.WalkLemmas
import Verif.Whole.WalkProps
import Verif.Whole.WalkExamples
import Verif.Whole.MediaModel
import Verif.Whole.MediaSpec
import Verif.Whole.MediaLemmas
import Verif.Whole.MediaProps
import Verif.Whole.MediaExamples
import Verif.Whole.MediaMsSpec
import Verif.Whole.MediaMsProps
import Verif.Node.LinkSpec
import Verif.Node.LinkLemmas
import Verif.Node.LinkProps
import Verif.Whole.LinkSpec
import Verif.Whole.LinkLemmas
import Verif.Whole.LinkProps
import Verif.Whole.LinkExamples
import Verif.Whole.LinkMsSpec
import Verif.Whole.LinkMsLemmas
import Verif.Whole.LinkMsProps
import Verif.Reader.ShownSpec
import Verif.Reader.ShownLemmas
import Verif.Directory.FoundSpec
import Verif.Directory.FoundLemmas
import Verif.Directory.FoundProps
import Verif.File.FoundProps
import Verif.Mode.FoundProps
import Verif.Property.TakenSpec
import Verif.Property.TakenLemmas
import Verif.Property.TakenTree
import Verif.Property.TakenProps
import Verif.Image.TakenSpec
import Verif.Image.TakenProps
import Verif.Ms.TableSpec
import Verif.Ms.TableLemmas
import Verif.Ms.TableProps
import Verif.Property.DirectSpec
import Verif.Property.DirectLemmas
import Verif.Property.DirectProps
import Verif.Image.DirectProps
import Verif.Node.PlaceSpec
import Verif.Node.PlaceLemmas
import Verif.Whole.PlaceSpec
import Verif.Whole.PlaceLemmas
import Verif.Whole.PlaceProps
import Verif.Reader.Cases
import Verif.Keys.Cases
import Verif.Resolve.Cases
import Verif.Node.Cases
import Verif.Image.Cases
import Verif.Whole.Open64Props
import Verif.Whole.Open64Examples
import Verif.Whole.MediaLinkSpec
import Verif.Whole.MediaLinkLemmas
import Verif.Whole.MediaLinkProps
import Verif.Whole.MediaLinkExamples
import Verif.Whole.MediaLinkMsProps
import Verif.Thread.Model
import Verif.Thread.Spec
import Verif.Thread.Logic
import Verif.Thread.Lemmas
import Verif.Thread.Props
import Verif.Thread.Examples
import Verif.Thread.ArchiveLemmas
import Verif.Thread.OpLemmas
import Verif.Thread.ArchiveProps
import Verif.Thread.MsSpec
import Verif.Thread.MsLemmas
import Verif.Thread.MsOpLemmas
import Verif.Thread.MsProps
import Verif.Media.PoisonModel
import Verif.Media.PoisonSpec
import Verif.Media.PoisonLemmas
import Verif.Media.PoisonRuns
import Verif.Media.PoisonProps
import Verif.Node.SpoilModel
import Verif.Node.SpoilSpec
import Verif.Node.SpoilLemmas
import Verif.Node.SpoilProps
import Verif.Node.LifeModel
import Verif.Node.LifeSpec
import Verif.Node.LifeLemmas
import Verif.Node.LifeProps
import Verif.Thread.CrashModel
import Verif.Thread.CrashSpec
import Verif.Thread.CrashLemmas
import Verif.Thread.CrashProps
import Verif.Whole.ArchiveExamples
import Verif.Whole.JsonModel
import Verif.Whole.JsonSpec
import Verif.Whole.JsonLemmas
import Verif.Whole.JsonProps
import Verif.Whole.JsonArchiveLemmas
import Verif.Whole.JsonMsProps
import Verif.Node.WalkOrderModel
import Verif.Node.WalkOrderSpec
import Verif.Node.WalkOrderLemmas
import Verif.Node.WalkOrderProps
import Verif.Whole.JsonLinkSpec
import Verif.Whole.JsonLinkLemmas
import Verif.Whole.JsonLinkProps
import Verif.Whole.JsonLinkMsProps
import Verif.Whole.JsonLinkArcLemmas
import Verif.Value.JsonOrderProps
import Verif.Thread.JsonModel
import Verif.Thread.JsonSpec
import Verif.Thread.JsonLemmas
import Verif.Thread.SnapLemmas
import Verif.Thread.JsonProps
import Verif.Thread.JsonExamples
import Verif.Thread.ReachSpec
import Verif.Thread.ReachLemmas
import Verif.Thread.ReachProps
import Verif.Thread.ReachArchiveSpec
import Verif.Thread.ReachArchiveProps
import Verif.Thread.ReachCrashProps

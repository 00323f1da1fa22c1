import Verif.Basic
import Verif.Lex
import Verif.Decimal.Model
import Verif.Decimal.Spec
import Verif.Decimal.Lemmas
import Verif.Decimal.SortKey
import Verif.Decimal.Theorems
import Verif.Decimal.EdgeTheorems
import Verif.Hex.Model
import Verif.Hex.Spec
import Verif.Hex.Theorems
import Verif.Guid.Model
import Verif.Guid.Theorems
import Verif.Base64.Model
import Verif.Base64.Spec
import Verif.Base64.Theorems
import Verif.Base64.FormTheorems
import Verif.Text.Model
import Verif.Text.Spec
import Verif.Text.Theorems
import Verif.Unicode.Model
import Verif.Unicode.Spec
import Verif.Unicode.Lemmas
import Verif.Unicode.Theorems
import Verif.Time.Model
import Verif.Time.Theorems
import Verif.Time.ZoneTheorems
import Verif.Stream.Model
import Verif.Stream.Spec
import Verif.Stream.Theorems
import Verif.Stream.VecTheorems
import Verif.Zlib.Model
import Verif.Zlib.Spec
import Verif.Zlib.Theorems
import Verif.Zlib.Example
import Verif.Cache.Model
import Verif.Cache.Spec
import Verif.Cache.Theorems
import Verif.Cache.Weak
import Verif.Object.Base
import Verif.Object.Read
import Verif.Object.Spec
import Verif.Object.ReadLemmas
import Verif.Object.ReadTheorems
import Verif.Object.Write
import Verif.Object.FreeSpec
import Verif.Object.FreeLemmas
import Verif.Object.FreeTheorems
import Verif.Object.Data
import Verif.Object.DataLemmas
import Verif.Object.DataTheorems
import Verif.Object.ResizeSpec
import Verif.Object.ResizeLemmas
import Verif.Object.ShrinkLemmas
import Verif.Object.ResizeTheorems
import Verif.Object.StoreTheorems
import Verif.Object.DeleteTheorems
import Verif.Object.Delete838
import Verif.Object.Whole
import Verif.Object.WholeLemmas
import Verif.Object.WholeTheorems
import Verif.Object.Transfer
import Verif.Object.TransferSpec
import Verif.Object.TransferLemmas
import Verif.Object.TransferTheorems
import Verif.Object.Pages
import Verif.Object.Store838
import Verif.Tree.Regex
import Verif.Tree.Model
import Verif.Tree.Spec
import Verif.Tree.Lemmas
import Verif.Tree.Theorems
import Verif.Tree.ClassTheorems
import Verif.Container.Model
import Verif.Container.Spec
import Verif.Container.Lemmas
import Verif.Container.WriteLemmas
import Verif.Container.LoopLemmas
import Verif.Container.LayoutLemmas
import Verif.Container.Theorems
import Verif.Entry.Model
import Verif.Entry.Spec
import Verif.Entry.Theorems
import Verif.Blob.Model
import Verif.Blob.Spec
import Verif.Blob.Lemmas
import Verif.Blob.WriteLemmas
import Verif.Blob.Theorems
import Verif.Blob.MoreTheorems
import Verif.Record.Model
import Verif.Record.Spec
import Verif.Record.Lemmas
import Verif.Record.LayoutTheorems
import Verif.Record.Theorems
import Verif.Record.Edit
import Verif.Record.EditSpec
import Verif.Record.EditTheorems
import Verif.Index.Leaf
import Verif.Index.Spec
import Verif.Index.LeafLemmas
import Verif.Index.LeafTheorems
import Verif.Index.Walk
import Verif.Index.WalkSpec
import Verif.Index.WalkTheorems
import Verif.Index.Edit
import Verif.Index.EditSpec
import Verif.Index.EditTheorems
import Verif.Index.DeleteTheorems
import Verif.Index.Tree
import Verif.Index.TreeSpec
import Verif.Index.TreeBytes
import Verif.Index.TreeRows
import Verif.Index.TreeBranch
import Verif.Index.TreeLeaf
import Verif.Index.TreeFree
import Verif.Index.TreeDelete
import Verif.Index.TreeInsert
import Verif.Index.TreeTheorems
import Verif.Index.TreeFindings
import Verif.Cli.Model
import Verif.Cli.Spec
import Verif.Cli.Lemmas
import Verif.Cli.Theorems
import Verif.Cli.BlankTheorems
import Verif.Cli.Filter
import Verif.Cli.FilterSpec
import Verif.Cli.FilterTheorems
import Verif.Db.Open
import Verif.Db.Spec
import Verif.Db.Theorems
import Verif.Cli.OptionTheorems
import Verif.Depot.Theorems
import Verif.Depot.PackTheorems
import Verif.Config.FilesTheorems
import Verif.Config.SelectTheorems
import Verif.Config.PathTheorems
import Verif.Config.CasTheorems
import Verif.Config.SaveTheorems
import Verif.Config.HandleTheorems
import Verif.Value.UsersTheorems
import Verif.Value.LargeTheorems
import Verif.Value.CutTheorems
import Verif.Container.OpenTheorems
import Verif.Field.Entry
import Verif.Field.Xml
import Verif.Field.Keys
import Verif.Template.Theorems
import Verif.Record.SaveFaults
import Verif.Export.Theorems
import Verif.Depot.PartTheorems
import Verif.Config.WholeTheorems
import Verif.Vendor.Examples
import Verif.App.Examples
import Verif.Lost.Theorems
import Verif.Tables.Theorems
import Verif.Tables.Examples
import Verif.Tables.CreateTheorems
import Verif.Depot.FileExamples
import Verif.Depot.OldExamples
import Verif.TableOpen.Examples
import Verif.Crc.Snapshot
import Verif.FileStream.Theorems
import Verif.Handle.Theorems
import Verif.Nested.Theorems
import Verif.Nested.Example
import Verif.Cfu.Examples
import Verif.Format.Examples
import Verif.TableList.Examples
import Verif.Temp.Theorems
import Verif.SaveBlob.Examples
import Verif.Tref.Examples
import Verif.Tref.NumberTheorems
import Verif.ConfigDir.Theorems
import Verif.Messages.Theorems
import Verif.Links.ParseTheorems
import Verif.Index.DumpFindings
import Verif.Config.StoredFindings
import Verif.Config.ChainFindings
import Verif.Pool.Findings
import Verif.Cache.CrashFindings
import Verif.View.Theorems
import Verif.View.MiscTheorems
import Verif.Config.ExtTheorems
import Verif.Config.ExtFindings
import Verif.Field.NumberSpec
import Verif.Field.Number
import Verif.View.Grid
import Verif.View.GridSpec
import Verif.View.GridTheorems
import Verif.View.GridFindings
import Verif.View.Hex
import Verif.View.HexSpec
import Verif.View.HexTheorems
import Verif.FileStream.From
import Verif.FileStream.FromTheorems
import Verif.Config.Again
import Verif.Config.AgainSpec
import Verif.Config.AgainTheorems
import Verif.Cache.Power
import Verif.Cache.PowerTheorems
import Verif.Cache.PowerFindings
import Verif.Container.Dying
import Verif.Container.DyingLemmas
import Verif.Container.DyingSpec
import Verif.Container.DyingTheorems
import Verif.Config.WholeDying
import Verif.Container.MixedLemmas
import Verif.Container.MixedTheorems

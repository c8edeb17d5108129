import Verif.Model.Query
import Verif.Model.Write
import Verif.Model.Log
import Verif.Props.Parse
import Verif.Props.Names
import Verif.Props.Nav
import Verif.Props.Edit
import Verif.Props.Attrs
import Verif.Props.Fragment
import Verif.Props.Source
import Verif.Props.Print
import Verif.Props.Sets
import Verif.Props.Query
import Verif.Props.Compare
import Verif.Props.Log
import Verif.Props.Counters
import Verif.Props.Memory
import Verif.Props.Pool
import Verif.Props.Buddy
import Verif.Props.Strings
import Verif.Props.Path
import Verif.Props.Trie
import Verif.Props.Files
import Verif.Props.Room
import Verif.Props.Forms
import Verif.Props.Confined
import Verif.Props.Stale
import Verif.Props.Stable
import Verif.Props.Broken
import Verif.Props.Status
import Verif.Props.Report
import Verif.Props.LogReturn
import Verif.Props.QueryMem
import Verif.Props.DomMem
import Verif.Props.Messages
import Verif.Props.EditMem
import Verif.Props.Worlds
import Verif.Props.Delivery
import Verif.Props.Skip
import Verif.Props.Detached
import Verif.Props.Reference
import Verif.Props.RefFrag
import Verif.Props.Page
import Verif.Props.Undo
import Verif.Props.Commute
import Verif.Props.Local
import Verif.Props.Double
import Verif.Props.PageQuery
import Verif.Props.PageRead
import Verif.Props.PageCompare
import Verif.Props.PageValue
import Verif.Props.MemSession
import Verif.Props.PageRefuse
import Verif.Props.SessionRoom
import Verif.Props.ParentRows
import Verif.Props.PageFind
import Verif.Props.BlockList
import Verif.Props.NameCost
import Verif.Props.Utf8
import Verif.Props.Rename
import Verif.Props.PageSame
import Verif.Props.Inject
import Verif.Props.Copy
import Verif.Props.Concat
import Verif.Props.NavRows
import Verif.Props.Lifetime
import Verif.Props.CompareTrans
import Verif.Props.AttrLaws
import Verif.Props.PrintInjective
import Verif.Props.EditLaws
import Verif.Props.QueryLaws
import Verif.Props.Crash
import Verif.Props.ArrayCrash
import Verif.Props.CrashPrint
import Verif.Props.CrashQuery
import Verif.Props.EditOrder
import Verif.Props.EditRemove
import Verif.Props.QueryEdit
import Verif.Props.ReadEdit
import Verif.Axioms

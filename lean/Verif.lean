import Verif.Cases.Address
import Verif.Cases.Archive
import Verif.Cases.Art
import Verif.Cases.Basics
import Verif.Cases.Better
import Verif.Cases.Bytes
import Verif.Cases.Commands
import Verif.Cases.Config
import Verif.Cases.Data
import Verif.Cases.Depends
import Verif.Cases.Disk
import Verif.Cases.Entries
import Verif.Cases.Fault
import Verif.Cases.Grammar
import Verif.Cases.Grow
import Verif.Cases.Hand
import Verif.Cases.Headings
import Verif.Cases.Http
import Verif.Cases.Layout
import Verif.Cases.Life
import Verif.Cases.Links
import Verif.Cases.Merge
import Verif.Cases.Origin
import Verif.Cases.Pair
import Verif.Cases.Places
import Verif.Cases.Project
import Verif.Cases.Recover
import Verif.Cases.Reports
import Verif.Cases.Server
import Verif.Cases.Session
import Verif.Cases.Share
import Verif.Cases.Split
import Verif.Cases.Team
import Verif.Cases.Tested
import Verif.Cases.Undo
import Verif.Cases.Warned
import Verif.Cases.Web
import Verif.Lemmas.Address
import Verif.Lemmas.Archive
import Verif.Lemmas.Art
import Verif.Lemmas.Avg
import Verif.Lemmas.Chan
import Verif.Lemmas.ChanPool
import Verif.Lemmas.ChanRead
import Verif.Lemmas.ChanSave
import Verif.Lemmas.Chars
import Verif.Lemmas.Cli
import Verif.Lemmas.Completion
import Verif.Lemmas.Config
import Verif.Lemmas.Dot
import Verif.Lemmas.ExpandNames
import Verif.Lemmas.Export
import Verif.Lemmas.ExportDoc
import Verif.Lemmas.ExportDot
import Verif.Lemmas.ExportShow
import Verif.Lemmas.Family
import Verif.Lemmas.Float
import Verif.Lemmas.FloatGrid
import Verif.Lemmas.FloatRun
import Verif.Lemmas.Frontend
import Verif.Lemmas.FrontendHist
import Verif.Lemmas.FrontendOrigin
import Verif.Lemmas.Fs
import Verif.Lemmas.Grammar
import Verif.Lemmas.Graph
import Verif.Lemmas.Hash
import Verif.Lemmas.HeadParts
import Verif.Lemmas.Headings
import Verif.Lemmas.Http
import Verif.Lemmas.IMap
import Verif.Lemmas.Init
import Verif.Lemmas.Join
import Verif.Lemmas.Json
import Verif.Lemmas.Listing
import Verif.Lemmas.Live
import Verif.Lemmas.LiveRun
import Verif.Lemmas.LiveSim
import Verif.Lemmas.Load
import Verif.Lemmas.LoadSpec
import Verif.Lemmas.Markdown
import Verif.Lemmas.MdExact
import Verif.Lemmas.MdLines
import Verif.Lemmas.MdRead
import Verif.Lemmas.MdRegex
import Verif.Lemmas.Modify
import Verif.Lemmas.Name
import Verif.Lemmas.Page
import Verif.Lemmas.PageShow
import Verif.Lemmas.Paint
import Verif.Lemmas.PaintDraw
import Verif.Lemmas.PaintShape
import Verif.Lemmas.Pattern
import Verif.Lemmas.PatternLang
import Verif.Lemmas.PatternParse
import Verif.Lemmas.PatternReplace
import Verif.Lemmas.PatternTrees
import Verif.Lemmas.Read
import Verif.Lemmas.ReadDup
import Verif.Lemmas.ReadJoin
import Verif.Lemmas.ReadLint
import Verif.Lemmas.Recover
import Verif.Lemmas.Regex
import Verif.Lemmas.RegexOrder
import Verif.Lemmas.Reload
import Verif.Lemmas.ReloadDisk
import Verif.Lemmas.Save
import Verif.Lemmas.SaveInv
import Verif.Lemmas.Scan
import Verif.Lemmas.ScanSrc
import Verif.Lemmas.Session
import Verif.Lemmas.Team
import Verif.Lemmas.TeamSave
import Verif.Lemmas.Text
import Verif.Lemmas.TextRef
import Verif.Lemmas.Toml
import Verif.Lemmas.Topo
import Verif.Lemmas.View
import Verif.Lemmas.Whole
import Verif.Lemmas.Wire
import Verif.Lemmas.WireFine
import Verif.Lemmas.WireMsg
import Verif.Lemmas.WireSound
import Verif.Lemmas.WireTree
import Verif.Lemmas.Written
import Verif.Lemmas.Yaml
import Verif.Model.Address
import Verif.Model.App
import Verif.Model.Archive
import Verif.Model.Art
import Verif.Model.Basic
import Verif.Model.Chan
import Verif.Model.Cli
import Verif.Model.Config
import Verif.Model.Dot
import Verif.Model.ExpandNames
import Verif.Model.Export
import Verif.Model.Float
import Verif.Model.Frontend
import Verif.Model.Fs
import Verif.Model.Graph
import Verif.Model.Hash
import Verif.Model.Http
import Verif.Model.Init
import Verif.Model.Json
import Verif.Model.Lint
import Verif.Model.Listing
import Verif.Model.Live
import Verif.Model.Modify
import Verif.Model.Name
import Verif.Model.Page
import Verif.Model.Paint
import Verif.Model.Pair
import Verif.Model.Pattern
import Verif.Model.Project
import Verif.Model.Raw
import Verif.Model.Read
import Verif.Model.Regex
import Verif.Model.Save
import Verif.Model.Scan
import Verif.Model.Serve
import Verif.Model.Team
import Verif.Model.Text
import Verif.Model.Toml
import Verif.Model.Types
import Verif.Model.View
import Verif.Model.Whole
import Verif.Model.Wire
import Verif.Model.Yaml
import Verif.Props.Address
import Verif.Props.App
import Verif.Props.Archive
import Verif.Props.Art
import Verif.Props.Better
import Verif.Props.Bytes
import Verif.Props.Chan
import Verif.Props.ChanSave
import Verif.Props.Check
import Verif.Props.Cli
import Verif.Props.Completion
import Verif.Props.Config
import Verif.Props.Depends
import Verif.Props.Dot
import Verif.Props.Entries
import Verif.Props.ExpandNames
import Verif.Props.Export
import Verif.Props.Fault
import Verif.Props.Float
import Verif.Props.Fmt
import Verif.Props.FmtTwice
import Verif.Props.Frontend
import Verif.Props.Fs
import Verif.Props.Grammar
import Verif.Props.Grow
import Verif.Props.Hand
import Verif.Props.Hash
import Verif.Props.Headings
import Verif.Props.Http
import Verif.Props.Init
import Verif.Props.Join
import Verif.Props.Json
import Verif.Props.Layout
import Verif.Props.Life
import Verif.Props.Links
import Verif.Props.Lint
import Verif.Props.Listing
import Verif.Props.Live
import Verif.Props.LiveEx
import Verif.Props.Ls
import Verif.Props.Markdown
import Verif.Props.Merge
import Verif.Props.Modify
import Verif.Props.Name
import Verif.Props.Origin
import Verif.Props.Page
import Verif.Props.Paint
import Verif.Props.Pair
import Verif.Props.Pattern
import Verif.Props.Places
import Verif.Props.Project
import Verif.Props.Raw
import Verif.Props.Read
import Verif.Props.Recover
import Verif.Props.Reports
import Verif.Props.Save
import Verif.Props.SaveEx
import Verif.Props.Scan
import Verif.Props.Serve
import Verif.Props.Session
import Verif.Props.Share
import Verif.Props.Split
import Verif.Props.Team
import Verif.Props.TeamBlock
import Verif.Props.Tested
import Verif.Props.Text
import Verif.Props.Toml
import Verif.Props.Undo
import Verif.Props.View
import Verif.Props.Warned
import Verif.Props.Whole
import Verif.Props.WholeEx
import Verif.Props.Wire
import Verif.Props.WireLast
import Verif.Props.Yaml
import Verif.Spec.Address
import Verif.Spec.Archive
import Verif.Spec.Art
import Verif.Spec.Better
import Verif.Spec.Bytes
import Verif.Spec.Chan
import Verif.Spec.Cli
import Verif.Spec.Completion
import Verif.Spec.Config
import Verif.Spec.Depends
import Verif.Spec.Dot
import Verif.Spec.Entries
import Verif.Spec.Export
import Verif.Spec.Fault
import Verif.Spec.Float
import Verif.Spec.Fmt
import Verif.Spec.Frontend
import Verif.Spec.Fs
import Verif.Spec.Grammar
import Verif.Spec.Grow
import Verif.Spec.Hand
import Verif.Spec.Headings
import Verif.Spec.Http
import Verif.Spec.Init
import Verif.Spec.Json
import Verif.Spec.Layout
import Verif.Spec.Life
import Verif.Spec.Links
import Verif.Spec.Listing
import Verif.Spec.Live
import Verif.Spec.Markdown
import Verif.Spec.Merge
import Verif.Spec.Modify
import Verif.Spec.Origin
import Verif.Spec.Page
import Verif.Spec.Paint
import Verif.Spec.Pair
import Verif.Spec.Pattern
import Verif.Spec.Places
import Verif.Spec.Recover
import Verif.Spec.Reports
import Verif.Spec.Save
import Verif.Spec.Session
import Verif.Spec.Share
import Verif.Spec.Split
import Verif.Spec.Team
import Verif.Spec.Tested
import Verif.Spec.Toml
import Verif.Spec.Undo
import Verif.Spec.Warned
import Verif.Spec.Whole
import Verif.Spec.Wire
import Verif.Spec.Yaml

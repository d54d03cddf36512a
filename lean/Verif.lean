import Verif.Go.Bytes
import Verif.Go.Sort
import Verif.Go.Path
import Verif.Go.Err
import Verif.Go.Space
import Verif.Go.Hex
import Verif.Model.Here
import Verif.Go.HereParse
import Verif.Model.Embed
import Verif.Model.AMap
import Verif.Model.Mem
import Verif.Model.Disk
import Verif.Model.Add
import Verif.Model.History
import Verif.Lemmas.Mem
import Verif.Spec.Observe
import Verif.Lemmas.Observe
import Verif.Spec.Demo
import Verif.Props.Codec
import Verif.Spec.Cursor
import Verif.Props.Read
import Verif.Lemmas.Touch
import Verif.Lemmas.Handle
import Verif.Props.Write
import Verif.Spec.Tree
import Verif.Props.Remove
import Verif.Lemmas.Mkdir
import Verif.Props.Mkdir
import Verif.Props.Create
import Verif.Spec.Trace
import Verif.Lemmas.Walk
import Verif.Spec.Reach
import Verif.Props.Walk
import Verif.Props.Dir
import Verif.Props.FileOpen
import Verif.Model.Wrap
import Verif.Spec.Layer
import Verif.Props.Layers
import Verif.Props.LayerMem
import Verif.Model.ConcApply
import Verif.Model.ConcMap
import Verif.Props.Conc
import Verif.Props.ConcMap
import Verif.Go.Unquote
import Verif.Model.Parser
import Verif.Spec.DiskTree
import Verif.Lemmas.Disk
import Verif.Spec.Decls
import Verif.Lemmas.Parser
import Verif.Props.Files
import Verif.Spec.ParserDemo
import Verif.Props.Virtual
import Verif.Lemmas.DiskSkip
import Verif.Spec.Lit
import Verif.Lemmas.Unquote
import Verif.Spec.Syntax
import Verif.Props.Declared
import Verif.Lemmas.Scan
import Verif.Spec.Scan
import Verif.Props.Scan
import Verif.Props.FileTree
import Verif.Lemmas.Add
import Verif.Props.Add
import Verif.Go.Utf8
import Verif.Go.Json
import Verif.Lemmas.Json
import Verif.Go.Decimal
import Verif.Go.Base64
import Verif.Go.Time
import Verif.Model.Serial
import Verif.Lemmas.Serial
import Verif.Props.Serial
import Verif.Model.Stuff
import Verif.Lemmas.Stuff
import Verif.Props.Stuff
import Verif.Props.Package
import Verif.Props.Life
import Verif.Props.FileInfo
import Verif.Props.Paths
import Verif.Props.Dump
import Verif.Model.Stdos
import Verif.Spec.Stdos
import Verif.Lemmas.Stdos
import Verif.Props.Stdos
import Verif.Go.Flag
import Verif.Model.Cmd
import Verif.Spec.Cmd
import Verif.Props.Cmd
import Verif.Model.Client
import Verif.Lemmas.Client
import Verif.Props.Readers
import Verif.Model.Http
import Verif.Lemmas.Http
import Verif.Props.Http
import Verif.Go.Defer
import Verif.Model.Main
import Verif.Props.Main
import Verif.Props.Declares
import Verif.Props.Embedded
import Verif.Props.Host
import Verif.Props.Agree
import Verif.Model.DiskClient
import Verif.Spec.Site
import Verif.Spec.SiteDemo
import Verif.Lemmas.DiskHttp
import Verif.Props.DiskHttp
import Verif.Model.Show
import Verif.Spec.Show
import Verif.Props.Show
import Verif.Props.Report
import Verif.Model.Fine
import Verif.Lemmas.Rely
import Verif.Lemmas.Alone
import Verif.Lemmas.FineRead
import Verif.Props.FineReaders
import Verif.Spec.Touch
import Verif.Lemmas.FineWrite
import Verif.Lemmas.FineWalk
import Verif.Props.FineWriters
import Verif.Props.FineWalk
import Verif.Lemmas.FineRace
import Verif.Lemmas.FineAdd
import Verif.Lemmas.FineRemove
import Verif.Props.FineRemove
import Verif.Props.FineRace
import Verif.Props.FineTurns
import Verif.Props.Script
import Verif.Model.DiskFine
import Verif.Lemmas.DiskFine
import Verif.Lemmas.DiskTurns
import Verif.Props.DiskFine
import Verif.Model.Reader
import Verif.Spec.Reader
import Verif.Lemmas.ReaderDisk
import Verif.Lemmas.ReaderMem
import Verif.Props.Reader
import Verif.Spec.Calendar
import Verif.Spec.Unicode
import Verif.Lemmas.Calendar
import Verif.Lemmas.Unicode
import Verif.Props.Text
import Verif.Model.Links
import Verif.Lemmas.Links
import Verif.Lemmas.LinksOS
import Verif.Props.Links
import Verif.Model.ParserObj
import Verif.Lemmas.ParserObj
import Verif.Props.ParserObj
import Verif.Model.Maps
import Verif.Lemmas.Maps
import Verif.Props.Maps
import Verif.Go.FileSet
import Verif.Lemmas.FileSet
import Verif.Model.Positions
import Verif.Lemmas.Positions
import Verif.Props.Positions
import Verif.Conformance.Ref
import Verif.Conformance.Pkger
import Verif.Model.WrapFiles
import Verif.Props.LayerWrites
import Verif.Props.ApplyOrder
import Verif.Model.PositionScan
import Verif.Lemmas.PositionScan
import Verif.Props.PositionScan
import Verif.Props.Documents
import Verif.Lemmas.JsonPrefix
import Verif.Props.Truncated
import Verif.Props.Reproducible
import Verif.Props.Grammar
import Verif.Model.LoadFiles
import Verif.Model.LoadFile
import Verif.Model.PkgTests
import Verif.Props.LoadFiles
import Verif.Props.LoadModes
import Verif.Props.LoadHttp
import Verif.Props.LoadFile
import Verif.Props.LoadWalk
import Verif.Props.PkgTests
import Verif.Props.LoadServe
import Verif.Props.GrammarShown

# A Lean 4 model of markbates/pkger

## What this is

`lean/Verif/` holds an executable model of the Go code in `/repo`, written function by function,
and theorems about it.  `properties.jsonl` lists the properties; `MANIFEST.json` maps each one to
the theorems.  Nothing ties the model to the code mechanically: every definition cites the file and
lines it models and was read against them.

Layout:

| directory | content |
|---|---|
| `Verif/Go/`    | the few pieces of Go's standard library the code computes with (`path`, `strings`, `hex`, `bytes.Reader`, `filepath.Walk`, JSON) |
| `Verif/Model/` | the model of the repository's own functions |
| `Verif/Spec/`  | small specifications the theorems are stated against (what "below", "cursor", "immediate child" ... mean), independent of the model |
| `Verif/Lemmas/`| helper lemmas |
| `Verif/Props/` | the property theorems, one file per group, each with examples that meet the hypotheses |

## Trusted base

* Lean 4.33.0's kernel.
* Axioms: only `propext`, `Quot.sound`, `Classical.choice`.
* That the model says what the Go code does.  The places where it simplifies are listed in
  "What the model covers" below and in the comment on each definition.
* The behaviour of things outside the repository.  They are parameters of the model, and the laws a
  theorem needs are explicit hypotheses of that theorem:
  - `here.Info.Parse` of `github.com/gobuffalo/here` v0.6.0 (not in `/repo`, not available offline):
    `Env.parse` with `ParseLaws E i`, in the terms of the README ("If unspecified the path's package is
    assumed to be the current module", "Packages can be specified at the beginning of a path with a
    `:`").  `Verif/Go/HereParse.lean` holds a reconstruction from memory of the actual function.  It is
    proved to satisfy the laws, which shows that they can hold.  Examples and some refutations use it
    (`Demo.env`); the manifest's note says so for each refutation that depends on it.
  - `here.Dir`, `here.Package` (they run `go list`): arbitrary functions.
  - gzip: `GzipLaw E`, decompression inverts compression.
  - the JSON form of `here.Info` and `here.Path`: `HereLaw H kept`, reading back what was written.
  - `go/parser`: a parameter giving the syntax tree of each source file.
  - the operating system: a static file tree for packaging (`Disk.Node`, or `Links.OS` with symbolic links), an arbitrary state machine for
    the disk Pkger (`Stdos.Host`).
* Go's standard library where the code's result depends on it is modelled in `Verif/Go/` from its
  documentation and from memory: `path.Clean/Join/Dir/Base`, `strings.TrimSpace/TrimPrefix/ReplaceAll`,
  `hex`, `base64`, `strconv` (decimal, Unquote), UTF-8 decoding, RFC 3339 times, `encoding/json`
  (compact and indented writer, reader), `filepath.Walk`, `bytes.Reader`, `sort.Slice`, `flag`.
* `net/http`'s file server (`Model/Http.lean`, C72-C75), from memory.

## What the model covers

| code | model | notes |
|---|---|---|
| pkging/embed/embed.go | `Model/Embed` | writing to a buffer cannot fail |
| pkging/mem/mem.go, file.go, pkging/file_info.go | `Model/Mem`, `Model/History` | file objects on a heap, so aliasing is visible; `Sys` dropped; `time.Now` is a clock in the world; seek offsets do not overflow; `Readdir` and `Walk` callbacks carry a state |
| pkging/mem/add.go | `Model/Add` | over a static disk tree |
| pkging/mem/embed.go, pkging/embed/file.go, mod_time.go | `Model/Serial` | down to the bytes of the JSON text |
| pkging/wrap.go | `Model/Wrap` | layers are arbitrary implementations acting on an arbitrary world; a value returned next to an error is dropped |
| programs that use a layered Pkger: calls on the stack, its files and its layers; `pkger.Dir` (pkger.go:32-40) on a stack | `Model/WrapFiles` | layers are in-memory Pkgers; a file the stack gives out is a pair of layer and file object |
| pkger.go, apply.go | `Model/ConcApply`, `Model/Wrap` | interleavings of single memory accesses, read-write lock |
| internal/maps | `Model/AMap`, `Model/ConcMap` | association lists; list order is Go's arbitrary map order; `sync.Once` and `sync.Map.Store` as documented |
| parser/ | `Model/Parser` | syntax trees as far as the code looks at them; positions dropped |
| parser/parser.go: one `Parser` used again, `ParseFile` | `Model/ParserObj` | with the map a failing parse leaves; proved to end as `Model/Parser`; one goroutine, no calls after a panic; the `mode` argument, which the code ignores, is left out |
| internal/maps/infos.go, files.go: the generated map types and their JSON methods | `Model/Maps` | `sync.Map` is a map with any visiting order; a failed type assertion (nil file) is kept; json errors of values left out; one goroutine |
| parser/source.go and parser/parser.go with source positions; `go/token.FileSet` | `Model/Positions`, `Go/FileSet` | syntax trees with offsets; proved to find the declarations of `Model/Parser`; no `//line` directives |
| the scan of a module and `pkger parse` with source positions: one `FileSet` per directory, no position for includes | `Model/PositionScan` | proved to be the scan of `Model/Parser` when positions are left out; the order of Go's map is given by file names |
| pkging/pkgutil/stuff.go, cmd/pkger/cmds/pack.go (`Package`) | `Model/Stuff` | writers may fail or write short; crash points are prefixes of the list of effects on the output file; `os.RemoveAll` of the old output succeeds |
| the same, and parser/open.go, walk.go, decl.go, pkging/mem/add.go, on a disk with symbolic links | `Model/Links` | `Lstat` and `Stat` are kept apart; any coherent pair of views, and path resolution on trees with links as an instance; proved equal to `Model/Stuff` without links |
| pkging/pkgutil/dump.go | `Model/Dump` | on an in-memory Pkger |
| pkging/stdos | `Model/Stdos` | the operating system and the Go tool answer arbitrarily; `filepath.Walk` sees a static tree |
| cmd/pkger/cmds (`Route`, stat, info, path, parse, list) | `Model/Cmd`, `Go/Flag` | printing succeeds and is reduced to what is printed; the flag package's messages are dropped |
| readers of pkging/mem, cmd/pkger/cmds/serve.go, pkger.go (`Dir`) | `Model/Client`, `Model/Http` | programs that choose each call by the answers so far, interleaved at whole calls; net/http's file server from memory, on the in-memory Pkger; the network, headers other than those that select content, and the syntax of `Range` are left out |
| pkging/mem in single accesses | `Model/Fine` | each access to a `sync.Map` or a field of a file object is one step, in one order for all goroutines (the Go memory model promises this only without data races: C96 says for which programs there are none; goroutines that share a handle, as in C90, do race in this sense when both `Close` it, each writing nil); fields read in one expression are one step; `Range` visits no key twice, possibly any key present since it began, at least those present throughout; an object not yet stored is made in one step |
| pkging/stdos/file.go (`*os.File`'s own methods), cmd/pkger/cmds/serve.go | `Model/DiskClient` | the same reading programs, run on the disk Pkger; `Read` and `Seek` of the operating system are parameters; requests come one after the other; printing and the network are left out |
| pkging/stdos used by several goroutines | `Model/DiskFine` | each system call and each access to the map of packages is one step; `filepath.Walk` takes in the tree in one step; proved equal to `Model/DiskClient` for one goroutine |
| examples/open, examples/stat, examples/walk | `Model/Reader` | programs that only read; a loop of `Read` calls until there are enough bytes is one question; of an error a program sees only `os.IsNotExist` or `io.EOF`; printing is left out |
| the interfaces pkging.Pkger and pkging.File, as programs use them to change files | `Model/Script` | the same program text on the in-memory Pkger and on the disk Pkger; the operating system is one with all permissions, room enough and nobody else working on it (`FileSys.Unix`, with an executable instance in `Spec/FileSysDemo`); `Write` of the operating system is a parameter |
| cmd/pkger/main.go | `Model/Main`, `Model/Show`, `Go/Defer` | deferred calls, panics and `os.Exit`; `Main.program` is the whole program for given arguments |
| output and usage of cmd/pkger/cmds, `MarshalJSON` of the declarations, `FileInfo.String` | `Model/Show` | printing succeeds; positions of declarations and the server loop are inputs |
| pkging/pkgtest/load_ref.go (`LoadFiles`) | `Model/LoadFiles` | a program in the sense of `Model/Script`; the second copy made beside it with `os.Create` is left out |
| pkging/pkgtest/load_ref.go (`LoadFile`), stat.go, open.go, remove.go | `Model/LoadFile` | the same; the tests one after the other as one program that returns the answers |
| pkging/pkgtest/create.go, mkdir_all.go, remove_all.go | `Model/PkgTests` | the same; `Stat` of an open file is left out or replaced by that of the Pkger |

Not modelled: the rest of `pkging/pkgtest` (but see the checks below), `pkging/costello` (test
helpers), and the `internal/debug`, `internal/takeon` parts that only print.  Permission errors and concurrent changes
of the disk are left out of the static disk tree; symbolic links are in `Model/Links` only.

## Checks of the model against the repository's own tests

`Conformance/Ref` and `Conformance/Pkger` transcribe tests of the repository and evaluate them on the model: the
counts of declarations and files for pkging/pkgtest/testdata/ref and examples/http (parser/parser_test.go), the tests
in pkging/pkgtest for the in-memory Pkger and, for Create, MkdirAll, Remove and RemoveAll, for the disk Pkger, and
the tests of `Seek`, `Add`, `Encode` and `Stuff`.  They are single cases that look for mistakes in the model.  They
prove no property and no claim in the manifest rests on them.  The tests themselves were not run; what they demand was
read from their text, and the answers of the Go tool, the syntax trees and the directory listing were written down by
hand.  `HTTPTest` and `StatTest` are not transcribed (C117 and C118 are about what they try), and `Test_Stuff` is checked without the encoding in between.

## The states the theorems speak about

`Mem.Reached E i w` (`Spec/Reach.lean`) says that `w` is the state of a Pkger for `i` after any finite history of API
calls (`Model/History.lean`), starting from a Pkger just made by `New` or just loaded from an embedded blob
(`Mem.Start`, C70).  `Mem.Held E i w id` says in addition that the file object `id` was made in the course of this
history, as all handles are.  A negation is proved of a Pkger made by `New` wherever possible, so that it does not
depend on what blobs contain.

## Testing the theorems

`seeded/LOG.jsonl` records mutations: an edit of a definition of the model as a programmer might get it wrong, and
the theorems that no longer hold with it.  They are made in a copy outside this directory.  A mutation that no
theorem notices leads to a stronger theorem (field `tightened`).

## How properties are handled that the code violates

Several documented properties are false of the code.  Then the full statement stays in
`properties.jsonl`, a theorem with suffix `_refuted` (or a name ending in `_counterexample`) proves
the negation on a concrete reachable state, and one or more theorems with suffix `_partial` prove the part that
does hold, at full generality.  The manifest says `partial` for these.

## Plan per property

| id | modelled as | proof |
|---|---|---|
| C01 | hex codec on bytes, gzip as lawful parameter | induction on the byte list |
| C02 | hex alphabet; `Package` as a list of writes | induction; parsing the raw literal back |
| C03 | hex decoder | case analysis/induction |
| C04 | JSON tree codec for every struct; `MarshalJSON`/`UnmarshalJSON` | induction over the file map; later the JSON text codec too |
| C05, C06 | `bytes.Reader` and `File.Read/Seek` on a heap of file objects | refinement to an abstract cursor |
| C07 | same | expected false: `Read` returns a non-EOF error; refuted + partial |
| C08-C11 | op histories over a heap of file objects | frame theorem by case analysis over ops, induction over histories |
| C12 | invariant over all ops | induction over histories |
| C13, C14 | map erase / prefix filter | direct; C14 "nothing else" expected false (string prefix, package ignored) |
| C15, C16 | recursive `MkdirAll` with fuel shown sufficient | induction on path components; C16 expected false |
| C17, C18, C19 | `Create`; invariant | case analysis; C17/C19 expected partly false |
| C20-C25 | `Keys` as sort of an unordered association list, `Walk` as fold with callback state | uniqueness of sorted lists; induction on the key list; C22/C24 "nothing else" expected false |
| C26, C27 | `Readdir` as `Walk` with its callback | expected false in general (prefix siblings); partial |
| C28, C29 | `File.Open` with `path.Join`/`Clean` | component lemmas for `Clean`; C29 expected partly false |
| C30 | error values with an `isNotExist` classifier | case analysis; `Stat` expected false |
| C31-C33 | `Wrap` over arbitrary implementations on an arbitrary world | case analysis; C32, C33 expected false |
| C34, C35 | stack of layers; RWMutex state machine | induction over sequences / schedules |
| C36 | step machine for lazy initialisation | expected false: a losing schedule; safe once initialised, by invariant |
| C37-C39 | `Decls`, `Decls.Files` over a disk tree | induction over declarations; sort uniqueness |
| C40-C42 | syntax trees, object table | induction on trees; C41, C42 expected false |
| C43 | directory tree scan | induction on trees; "exactly" expected false (prefix test) |
| C44, C45, C58 | `Add`, `Stuff` on a disk tree composed with C01, C04 | composition; C45 expected false |
| C46, C47 | writer with failures; crash points = prefixes of the effect list | case analysis; expected false, partial |
| C48, C49, C51 | `stdos` over an OS interface recording calls | component lemmas; C48 expected false for `MkdirAll` |
| C50 | handle counting | expected false |
| C52 | dispatch over the sub-command table | case analysis |
| C53, C54 | heap model of `FileInfo` pointers | histories; expected partly false |
| C55 | `Path.String` | list lemmas |
| C56 | invariant | histories |
| C57 | `Dump` as `Walk` with a map-building callback | from C20 |
| C59 | JSON codec of `Details`, RFC3339Nano text | codec lemma |
| C60 | `WalkDecl.Files` over a disk tree, with the set of paths the program creates | exact listing, by induction over the tree |
| C61 | the JSON reader and `UnmarshalJSON` | expected false: a blob without a file's details makes later use crash |
| C62, C63 | `Package` | expected: C62 holds, C63 false for a declared directory above the output |
| C64 | histories | Stat after Close |
| C65 | `stdos.File.Open` | expected false (`..`, package dropped); partial |
| C66 | `flag.Parse` and `Route` | iff with an inductive relation of written options |
| C67 | stat, info, list | host recording changing calls; `list` expected false (removes the output) |
| C68 | list against `Package` | expected false for a declared directory above the output |
| C69 | stat over a host recording open files | expected false if fstat fails; partial |
| C70 | the states theorems speak about start from `New` or from a loaded blob | from the round trip of C04 |
| C71 | reading programs as trees of calls; threads with a schedule | a simulation between the shared and the solo run, kept by each call; expected false for handles shared through `File.Open` of the own path |
| C72-C74 | the file server as a reading program | from C06, C26, C29; expected false for the own path, and where C26 is |
| C75 | requests as threads | from C71 |
| C76 | deferred calls | case analysis; expected false for exits inside |
| C77 | main and `Route` and `Package` together | from C47 and C76; expected false for failing writes |
| C78 | from declarations to files | invariant of the loop over declarations: the known paths agree with the created ones on all names compared; expected false for nested modules (C60) |
| C79 | parser, files, packaging, codec, embedded Pkger together | from C78 and C44; expected false for other modules (C44) |
| C80 | disk Pkger against an arbitrary operating system | unfolding with the laws of `Parse` and `Join`; expected false for `MkdirAll` of unclean names (C48) |
| C81 | disk Pkger against embedded Pkger | both reduced to the tree on disk, with C79, C20 and the walk of C49; the operating system shows a given disk; expected false for the order of walks and for siblings (C24) |
| C82 | file server program on the disk Pkger, operating system that shows a fixed tree (`Site.Posix`) | every procedure of the server gets a lemma about its run on the disk, up to other open files; expected: 500 below regular files; false of directories of other packages, since a handle forgets its package (C65) |
| C83 | the same program on both Pkgers | both equal `Site.answer`, a file server written down for trees; C82 for the disk, C26, C72-C74 and C79 for the embedded files; expected false below regular files, for the directory's own path (C72) and for siblings (C26) |
| C84 | `path`: loop over a map, document written and read back | loop invariant on the map; `Json.parse_pretty`; expected false for invalid UTF-8 |
| C85 | `parse`: the same with declarations | as C84; expected false for invalid UTF-8 |
| C86 | `list`: text and JSON | lines are recovered by induction; expected false for newlines in names |
| C87 | `stat` and `info` on an operating system that shows a tree | induction over the arguments with the laws of `Site.Posix`; expected false for invalid UTF-8 |
| C88 | the whole program, dispatch and usage | C52, C66 and C76 together; expected false for the option of `serve` |
| C89 | `serve` with any server loop, and with requests | `Site.Posix` and C82; the requests part fails with C82 |
| C90 | methods as trees of single accesses (`Model/Fine`), any schedule, `Range` in any order | rely/guarantee (`Lemmas/Rely`): the rely of a reader is that the map and the objects it does not own stay; the local view simulates the solo run of C71; refinement of the whole methods for the uninterrupted case |
| C91 | the same model; which paths a call may store or delete is a small spec of its own (`Spec/Touch`) | rely/guarantee with ownership of new objects: everyone changes only objects they made and entries of their own paths (`Lemmas/FineWrite`); the writer knows its object, the entry and, for success, that the directory stays |
| C92 | the same | the invariant that the bytes of every object that is or was the file are among the possible contents, kept by `Close` because the bytes are put in place in one access; refuted for the size, which is set in a later access |
| C93 | the same | invariant of `Range`: keys seen are new and have come, keys there from the beginning are seen or deleted; refuted with a concurrent `Remove`, on which `Walk` gives up |
| C94 | the same | invariant: after the delete the path is absent or the deleter has not come to it; every call stores and deletes only its `Stores` and `Deletes` |
| C95 | the same | refuted: two `Remove` of the same file both succeed; `Create` below a directory and its `RemoveAll` both succeed and leave a file without directory; `Create` and `MkdirAll` alone, any number of them, are as in some order (`C95_adding_partial`: entries are ordered as they came, a call that had to find a directory comes after the one that stored it) |
| C96 | `Sys.Races` | who may access an object: its maker to write, others to read only if it is not a file somebody creates; refuted with `Open` during `Close` |
| C97 | a tree of files and what each thing done should do to it (`Spec/FileSys`) | both Pkgers refine the tree: on the disk always, from the laws of the operating system; in memory if the thing done `Fits`; expected false for what the in-memory Pkger does not check (removing a full directory, files below files) and for its prefix tests |
| C98 | `RightAlone`: what can be shown of a program alone on every operating system that shows the disk | a goroutine among others is one that runs alone on an operating system that changes suddenly between its calls (`Lemmas/DiskTurns`); that system again shows the disk, so that C82 applies; invariant over the schedule; expected false for shared open files |
| C99 | the map of packages before and after | invariant: known, and nobody looking it up; expected false for two lookups at once and a tool that changes its mind |
| C100 | `Reader.step`: the answer to each question from the tree and the program's own open files alone | simulation: after each question the disk Pkger (`OnDisk`) and the in-memory Pkger (`OnMem`) are related to the same abstract open files; induction over the program; expected false at the edges (missing names, empty files, second listing, closed files) |
| C101 | a clock that starts at 1970-01-01 00:00:00 and ticks by the rules of the calendar (Spec/Calendar.lean); digits written out | the model's clock ticks like it, ticking is injective on real dates, so there is one such clock; expected true within the years 0 to 9999 |
| C102 | the UTF-8 encoding of a list of Lean's `Char` (Spec/Unicode.lean) | byte ranges as numbers, induction over the string; expected true |
| C103 | two functions, what `Lstat` and what `Stat` show of a path, with two laws between them (`Coherent`), proved of path resolution on every tree with links | adding a tree with links is adding a tree with the bytes the links lead to (`mark`), so that the theory of `Add` applies; later additions win, and a directory is added before what is below it; expected false for links to directories and for unlisted links |
| C104 | which calls read the disk, and the disk as it was at the first and at the last such call (`Scans`); what one reading yields is `Parser.parse`, about which C40 to C43 speak | invariants over the sequence of calls: the map in use is the one the last reading left, maps are only added; a scan that keeps its partial map ends as one that does not; expected false for `DeclsMap` after a failing `Decls` |
| C105 | declarations found by `ParseDir` for the same file; the recorded path joined to the module's directory | induction over syntax trees: declarations depend on the name and the tree only; expected false for the recorded path |
| C106 | the last call in the history that says something about the key; lists of present entries; runs of a callback | invariant over histories relating the data to the last call; the loop as a run; stores of distinct keys as a history; JSON by the map lemmas of C04 |
| C107 | line and column of an offset counted from the text (`Right`); calls contained in the tree (`HasCall`); laws of `go/parser` (`Placed`, `Spans`) | the line table holds the offsets after newlines, binary search by its loop invariant, disjoint ranges of files; induction over trees; expected true |
| C108 | chunks written to a file in a history (`writtenTo`), calls that leave a path alone (`Leaves`), `Delivers` | each layer's share of a history is a history of that layer, then C08 in the layer that made the file; false when a newer layer has the file but not its directory |
| C109 | `Dir.Open` and `Readdir` of one layer alone | the handle is one of the newest layer that opens the directory; false when an older layer has files there |
| C110 | the answer of one layer alone; modules with their own descriptions (`OwnModules`) | full paths are parsed alike by all modules, so one layer answers and the others fail without effect; false for names without package |
| C111 | files of the disk, calls in their trees, line and column counted from the text (`PointsInto`); members of a JSON value (`TellsPosition`) | simulation of one walk by the other; an invariant of the walk over the entries of the tree; C107 for each file |
| C112 | documents that differ in unknown members and in order (`SameDoc`, written from the struct tags) | fields of different names are read independently, so swapping and leaving out members changes nothing; induction on the relation |
| C113 | prefixes of a document and white space after it (`Blank`), on the text alone | a complete value is read the same with more bytes after it (strings, numbers and nesting, by induction on the fuel), so two accepted texts of which one continues the other differ in white space only; a written document ends in a brace |
| C114 | equality of the bytes of two runs of `Stuff` that differ in time, zone and order of maps | no step of filling reads the clock (simulation of the walk); the list of files is unique by C39; the written map is determined by its entries, as sorting distinct keys is unique; the zone shows in the offset of the times (counterexample), and C04 used twice gives alike Pkgers |
| C115 | the grammar of RFC 8259 as inductive relations (`Spec/JsonText`) | reader and grammar agree in both directions: induction on the fuel one way, on the derivation the other; strings by the bytes that one character or escape takes, numbers by what may follow them |
| C116 | `Loaded`: the shape of the tree at its place, without entries whose name begins with a dot, and nothing else changed | induction over the tree: the program does only what both Pkgers do alike (`Complies`) and should end with `Loaded`; then C97 for both Pkgers; two closed refutations for hidden directories and modes; for the modes the program is a chain of calls, and the last `MkdirAll` at or below a directory decides |
| C117 | answers given by the tree that was copied and whether a path in it is hidden | `MkdirAll` records the package of the Pkger in a directory, and the chain of calls `LoadFiles` makes keeps that; so the opened directory is one C72 and C74 speak of, and C116 says what is in it; the pages follow from C26 for the tree the Pkger holds; a closed refutation for the own path |
| C118 | the tree of files of C97 with one file more, and without it | the program does only what both Pkgers do alike, step by step, and C97 carries it to both; a closed refutation for empty files |
| C119 | the entries of the tree that are not hidden, with path, name and kind | C116 says what is stored, C20 which stored paths are visited and with what details; two lists without repetition and with the same members are permutations of each other, and equal if both are sorted; a closed refutation for the order |
| C120 | the tree of files of C97: set, mkdirs, prune | each step is one that both Pkgers do alike, and C97 carries it to both; what LoadFiles adds (C116) is all below the directory, so pruning gives the tree of before; a closed refutation with a name beside the directory that begins with its letters |

Not expressible here: real goroutine memory-model effects (torn reads of unsynchronised fields) beyond
interleavings of the modelled steps; timing; actual compression; the Go compiler.

{"id": "C01", "title": "Embed codec round-trips", "statement": "For every byte string b, embed.Decode applied to the output of embed.Encode(b) returns exactly b and no error.", "quantifier": "every byte string of every length", "why_tests_cant": "The test encodes one three-byte string; the claim is about all inputs.", "anchors": ["pkging/embed/embed.go: Encode, Decode"]}
{"id": "C02", "title": "Embedded blob is safe inside a raw string literal", "statement": "The output of embed.Encode consists only of the characters 0-9 and a-f, has even length, and so never contains a backquote or carriage return; the generated pkged.go therefore consists of a fixed header, one raw string literal whose value is exactly the blob, and a fixed footer.", "quantifier": "every embedded payload, every package name", "why_tests_cant": "No finite set of payloads covers every byte value at every position.", "anchors": ["pkging/embed/embed.go: Encode", "cmd/pkger/cmds/pack.go: Package"]}
{"id": "C03", "title": "Malformed blobs are rejected, never partially decoded", "statement": "embed.Decode returns an error and no data whenever the input has odd length or contains a byte outside 0-9, a-f, A-F; it never returns a shortened payload.", "quantifier": "every byte string", "why_tests_cant": "The malformed inputs are infinite in number.", "anchors": ["pkging/embed/embed.go: Decode"]}
{"id": "C04", "title": "Serialising and re-hydrating a Pkger loses nothing", "statement": "For every in-memory Pkger, marshalling it to JSON and unmarshalling gives a Pkger with the same Current, the same Info answers, the same set of paths, and for each path the same Stat details and the same bytes from Open+Read.", "quantifier": "every in-memory Pkger reachable through the API whose paths are well formed; every path and file content", "why_tests_cant": "The state space (any number of files, names, contents) is unbounded.", "anchors": ["pkging/mem/embed.go: MarshalJSON, UnmarshalJSON, UnmarshalEmbed", "pkging/embed/file.go: File"]}
{"id": "C05", "title": "Reading a handle to the end yields exactly the file's bytes", "statement": "For a fresh handle returned by Open on a non-empty file, the concatenation of the results of any sequence of Read calls, with any buffer sizes, is a prefix of the stored bytes; it is all of them once enough buffer space was offered; EOF is reported exactly when everything has been read, and no byte is duplicated, dropped or reordered.", "quantifier": "every content, every sequence of buffer sizes", "why_tests_cant": "Buffer size sequences and contents are unbounded.", "anchors": ["pkging/mem/file.go: Read", "pkging/mem/mem.go: Open"]}
{"id": "C06", "title": "Seek and Read behave like a cursor over immutable bytes", "statement": "Any interleaving of Seek and Read on a handle of a non-empty file gives the same results as an abstract (content, position) cursor: whence 0/1/2 set the position relative to start, current position and end, a negative target or bad whence is an error that leaves the position unchanged, and a read returns the bytes at the position.", "quantifier": "every content, every finite sequence of Seek and Read calls", "why_tests_cant": "Sequences of calls are unbounded; the test checks one script.", "anchors": ["pkging/mem/file.go: Seek, Read"]}
{"id": "C07", "title": "Reading an empty file reports end of file", "statement": "Read on a handle of an empty regular file returns io.EOF (as the File interface documents), so ioutil.ReadAll returns zero bytes and no error.", "quantifier": "every empty regular file, however it got into the Pkger", "why_tests_cant": "The tests never read an empty file.", "anchors": ["pkging/mem/file.go: Read", "pkging/file.go: File.Read"]}
{"id": "C08", "title": "Create, Write, Close, Open returns the written bytes", "statement": "After Create(p), any sequence of Writes on the returned handle and Close, with any other operations that do not re-bind p in between, Open(p) reads exactly the concatenation of the written chunks.", "quantifier": "every path, every sequence of chunks, every interleaving with operations on other paths and handles", "why_tests_cant": "Interleavings and chunk sequences are unbounded.", "anchors": ["pkging/mem/mem.go: Create, Open", "pkging/mem/file.go: Write, Close"]}
{"id": "C09", "title": "Writes become visible only at Close", "statement": "Between Create(p) and Close of the handle, however many Writes happened, every Open(p) sees the content as of Create (empty) and Stat(p) reports size 0; Close publishes all writes at once.", "quantifier": "every history between Create and Close", "why_tests_cant": "All interleavings of readers and writers must be considered.", "anchors": ["pkging/mem/file.go: Write, Close", "pkging/mem/mem.go: Create, Open, Stat"]}
{"id": "C10", "title": "Opened handles are isolated snapshots", "statement": "A handle returned by Open keeps delivering the content the file had when it was opened, whatever is later created, removed, rewritten or re-opened; and Write/Close on a handle returned by Open never changes what any later Open or Stat of any path observes.", "quantifier": "every history of operations after the Open", "why_tests_cant": "Quantifies over all later histories.", "anchors": ["pkging/mem/mem.go: Open", "pkging/mem/file.go: Write, Close, Read"]}
{"id": "C11", "title": "The most recent Create owns the path", "statement": "If a path is created twice, closing (or writing to) the handle of the earlier Create has no effect on what Open and Stat of that path return.", "quantifier": "every path and every interleaving of the two handles' operations", "why_tests_cant": "Interleavings are unbounded.", "anchors": ["pkging/mem/mem.go: Create", "pkging/mem/file.go: Close"]}
{"id": "C12", "title": "Stat size equals readable length", "statement": "In every state reachable from an empty Pkger by any sequence of API calls, the size reported by Stat for a regular file equals the number of bytes a fresh Open can read.", "quantifier": "every reachable state, every regular file", "why_tests_cant": "An invariant over all histories.", "anchors": ["pkging/mem/file.go: Close, Stat", "pkging/mem/mem.go: Create, Open, Stat"]}
{"id": "C13", "title": "Remove deletes exactly the named entry", "statement": "A successful Remove(p) makes Stat(p) and Open(p) fail and leaves every other path's Stat, content and handles unchanged; Remove of a missing path returns an error and changes nothing.", "quantifier": "every state, every path", "why_tests_cant": "Universally quantified over states and the unaffected paths.", "anchors": ["pkging/mem/mem.go: Remove"]}
{"id": "C14", "title": "RemoveAll deletes the named tree and nothing else", "statement": "After RemoveAll(p), p and every path below p are gone; every path that is neither p nor below p, and every path of another package, is untouched; a missing p is not an error.", "quantifier": "every state, every path", "why_tests_cant": "Universally quantified over states and the unaffected paths.", "anchors": ["pkging/mem/mem.go: RemoveAll"]}
{"id": "C15", "title": "MkdirAll creates the whole ancestor chain", "statement": "After a successful MkdirAll(p, perm), p and each of its ancestors can be Stat-ed and are directories.", "quantifier": "every path of any depth, every state, every package qualifier", "why_tests_cant": "Depth is unbounded.", "anchors": ["pkging/mem/mem.go: MkdirAll"]}
{"id": "C16", "title": "MkdirAll leaves existing entries alone", "statement": "MkdirAll(p, perm) on an existing directory does nothing and returns nil; existing ancestors keep their mode and modification time; existing regular files are never replaced; paths that are not p or an ancestor of p are unaffected.", "quantifier": "every state, every path", "why_tests_cant": "Quantifies over all prior states.", "anchors": ["pkging/mem/mem.go: MkdirAll"]}
{"id": "C17", "title": "Create needs an existing parent directory", "statement": "Create(p) succeeds only if the parent of p exists and is a directory; when it fails, no file is created and no other entry of the Pkger is added, removed or altered.", "quantifier": "every state, every path", "why_tests_cant": "Quantifies over all states and error paths.", "anchors": ["pkging/mem/mem.go: Create"]}
{"id": "C18", "title": "Create truncates", "statement": "After a successful Create(p), p exists as a regular file with mode 0644 and empty content, whatever was there before, its Stat name is the last path element, and other existing paths keep their content.", "quantifier": "every state, every path", "why_tests_cant": "Quantifies over all prior states.", "anchors": ["pkging/mem/mem.go: Create"]}
{"id": "C19", "title": "No orphans: every entry's parent exists", "statement": "In every state reachable by API calls, the parent of every existing path exists (Remove refuses to remove a non-empty directory).", "quantifier": "every reachable state, every stored path", "why_tests_cant": "An invariant over all histories.", "anchors": ["pkging/mem/mem.go: Create, MkdirAll, Remove, RemoveAll"]}
{"id": "C20", "title": "Walk visits each entry once, in lexical order, with its own details", "statement": "With a callback that always returns nil, Walk(root) calls it exactly once for every stored path of root's package in the tree rooted at root, in strictly increasing lexical order of the full path, with the same details Stat reports for that path, and returns nil.", "quantifier": "every state, every root", "why_tests_cant": "The set of files is unbounded; the test checks one tree.", "anchors": ["pkging/mem/mem.go: Walk", "internal/maps/files.go: Keys"]}
{"id": "C21", "title": "Walk visits parents before their descendants", "statement": "If a Walk visits both a path and a path below it, the ancestor is visited first.", "quantifier": "every state, every root, every callback", "why_tests_cant": "Quantifies over all trees and callbacks.", "anchors": ["pkging/mem/mem.go: Walk", "internal/maps/files.go: Keys"]}
{"id": "C22", "title": "Walk honours SkipDir", "statement": "When the callback returns SkipDir for a path, no path below it is visited afterwards, and nothing outside that path's subtree is skipped because of it.", "quantifier": "every state, every callback behaviour (including stateful callbacks)", "why_tests_cant": "Callbacks are arbitrary functions.", "anchors": ["pkging/mem/mem.go: Walk"]}
{"id": "C23", "title": "Walk stops at the first callback error", "statement": "If the callback returns an error other than SkipDir, Walk makes no further callback and returns that very error; if it never does, Walk over an unchanging Pkger returns nil.", "quantifier": "every state, every callback", "why_tests_cant": "Callbacks are arbitrary functions.", "anchors": ["pkging/mem/mem.go: Walk"]}
{"id": "C24", "title": "Walk stays inside the requested tree and package", "statement": "Walk(root) only ever reports root itself or paths below root, all of root's package.", "quantifier": "every state, every root, every callback", "why_tests_cant": "Quantifies over all stored names, including siblings that share a name prefix.", "anchors": ["pkging/mem/mem.go: Walk"]}
{"id": "C25", "title": "Walk and listing are deterministic despite map iteration order", "statement": "The sequence of paths Walk visits depends only on which entries are stored, not on insertion order or on Go's randomised map iteration order.", "quantifier": "every permutation of the underlying map entries", "why_tests_cant": "Iteration order is randomised at run time; tests sample a few.", "anchors": ["internal/maps/files.go: Keys", "pkging/mem/mem.go: Walk"]}
{"id": "C26", "title": "Readdir lists exactly the immediate children", "statement": "Readdir(n) with n <= 0 on a directory handle returns exactly one FileInfo for each entry whose parent is that directory, in lexical order, and no others.", "quantifier": "every state, every directory", "why_tests_cant": "Quantifies over all directory contents including names with common prefixes.", "anchors": ["pkging/mem/file.go: Readdir"]}
{"id": "C27", "title": "Readdir paging makes progress and ends with EOF", "statement": "Readdir(n) with n > 0 returns at most n entries; successive calls on one handle return further entries, and at the end of the directory it returns io.EOF.", "quantifier": "every directory, every n, every number of calls", "why_tests_cant": "Sequences of calls are unbounded.", "anchors": ["pkging/mem/file.go: Readdir"]}
{"id": "C28", "title": "Serving a directory never escapes it", "statement": "For a directory handle d, every file obtained by d.Open(name), for any requested name including ones with .. elements, has a path equal to or below d's path.", "quantifier": "every directory path, every requested name", "why_tests_cant": "Request names are attacker controlled and unbounded.", "anchors": ["pkging/mem/file.go: Open", "pkger.go: Dir.Open"]}
{"id": "C29", "title": "A directory handle resolves names relative to itself", "statement": "d.Open(name) returns the entry stored at d's path joined with name, in d's package; an error results exactly when no such entry exists.", "quantifier": "every state, every directory handle, every name", "why_tests_cant": "Quantifies over names, including names equal to the directory's own path.", "anchors": ["pkging/mem/file.go: Open"]}
{"id": "C30", "title": "Missing files are reported as not-exist", "statement": "Open and Stat of a well-formed path that is not stored return an error recognised by os.IsNotExist, which is what http.FileServer needs to answer 404.", "quantifier": "every state, every missing path", "why_tests_cant": "Quantifies over states and paths.", "anchors": ["pkging/mem/mem.go: Open, Stat"]}
{"id": "C31", "title": "Layered reads prefer the newest layer", "statement": "For a Pkger built by Wrap(parent, with), Parse, Current, Info, Open, Stat and Create return exactly with's answer whenever with succeeds and exactly parent's answer otherwise (or with's error if there is no parent).", "quantifier": "all Pkger implementations, all arguments, all states", "why_tests_cant": "Quantifies over arbitrary implementations.", "anchors": ["pkging/wrap.go: withPkger.Open, Stat, Create, Info, Current, Parse"]}
{"id": "C32", "title": "Layered removal removes", "statement": "If Remove(p) or RemoveAll(p) on a layered Pkger returns nil, p is gone from every layer; if p exists in some layer, Remove(p) removes it and returns nil.", "quantifier": "all layer contents, all paths", "why_tests_cant": "Quantifies over layer contents.", "anchors": ["pkging/wrap.go: withPkger.Remove, RemoveAll, MkdirAll"]}
{"id": "C33", "title": "Layered Walk reports each visible path once", "statement": "Walk on a layered Pkger reports every path visible through Open/Stat exactly once, with the details of the layer Open would use; an error or stop in one layer ends the walk.", "quantifier": "all layer contents, all callbacks", "why_tests_cant": "Quantifies over overlapping layers.", "anchors": ["pkging/wrap.go: withPkger.Walk"]}
{"id": "C34", "title": "Apply stacks layers, newest first, and disk is only the fallback", "statement": "After any sequence of Apply calls, package-level Open/Stat/... answer from the most recently applied layer that has an answer; disk is consulted if and only if nothing was ever applied; Apply with a non-nil error panics and changes nothing.", "quantifier": "every sequence of Apply calls", "why_tests_cant": "Sequence length is unbounded.", "anchors": ["apply.go: Apply", "pkger.go: impl", "pkging/wrap.go: Wrap"]}
{"id": "C35", "title": "Concurrent Apply calls are never lost", "statement": "Under every interleaving of concurrent Apply calls and package-level operations, the final stack contains every applied layer exactly once in some serial order, and each operation observes one stack that existed between its call and return.", "quantifier": "every number of goroutines, every schedule", "why_tests_cant": "Schedules are unbounded.", "anchors": ["apply.go: Apply", "pkger.go: impl, gil"]}
{"id": "C36", "title": "Concurrent first use of a Pkger loses no file", "statement": "If several goroutines store different files in a freshly made Pkger at the same time, afterwards all of them are present.", "quantifier": "every number of goroutines, every schedule", "why_tests_cant": "The bad schedules are rare; the race is in lazy initialisation.", "anchors": ["internal/maps/files.go: Data, Store, Load", "internal/maps/infos.go: Data"]}
{"id": "C37", "title": "Run-time created paths need not exist when packaging", "statement": "For the declaration list produced by Parser.Decls, a path the program creates itself with pkger.MkdirAll or pkger.Create is never looked up on disk by another declaration naming the same path: such a declaration adds no file and raises no error, wherever it occurs in the source.", "quantifier": "every set of declarations in every source order", "why_tests_cant": "Quantifies over all programs.", "anchors": ["parser/parser.go: Decls", "parser/decl.go: Decls.Files", "parser/open.go: OpenDecl.Files"]}
{"id": "C38", "title": "The file list is duplicate free and sorted", "statement": "Decls.Files returns at most one entry per absolute path on disk, sorted by package path, and contains every file contributed by some declaration.", "quantifier": "every declaration list, every disk", "why_tests_cant": "Declaration lists and disk trees are unbounded.", "anchors": ["parser/decl.go: Decls.Files"]}
{"id": "C39", "title": "The file list does not depend on map iteration order", "statement": "Decls.Files returns the same list whatever order Go iterates its internal map in.", "quantifier": "every permutation of the map entries", "why_tests_cant": "Iteration order is randomised.", "anchors": ["parser/decl.go: Decls.Files"]}
{"id": "C40", "title": "Every literal declaration is found, and nothing else", "statement": "Parsing a source file yields exactly one declaration for each call pkger.F(arg, ...) with F one of MkdirAll, Create, Include, Stat, Open, Dir, Walk whose first argument is a string literal or constant, wherever it is nested, with that string as value; no other expression yields a declaration.", "quantifier": "every syntax tree", "why_tests_cant": "Syntax trees are unbounded.", "anchors": ["parser/source.go: parse, value, valueNode, valueIdent"]}
{"id": "C41", "title": "Unusable declarations are reported", "statement": "If a source contains a pkger call whose first argument is missing or cannot be evaluated, parsing returns an error (the file would otherwise silently be missing from the binary).", "quantifier": "every syntax tree", "why_tests_cant": "Quantifies over all programs.", "anchors": ["parser/source.go: Parse, parse, DeclsMap"]}
{"id": "C42", "title": "Evaluating a declaration's argument terminates and does not crash", "statement": "Evaluating the first argument of a pkger call terminates without a crash and gives the constant's string value, for every identifier and every constant declaration.", "quantifier": "every argument expression, every chain of constant definitions", "why_tests_cant": "Chains of constants are unbounded; includes unresolved identifiers and implicit repetition.", "anchors": ["parser/source.go: valueIdent, valueNode"]}
{"id": "C43", "title": "Directories are skipped by name, and only those", "statement": "The source scan ignores exactly the directories named vendor, node_modules and testdata and those starting with . or _, with everything below them, and scans every other directory under the root.", "quantifier": "every directory tree", "why_tests_cant": "Trees and names are unbounded.", "anchors": ["parser/parser.go: parse, defaultIgnoredFolders"]}
{"id": "C44", "title": "Everything declared is embedded with the bytes it has on disk", "statement": "After packaging and re-hydrating, every file in the declared list whose name does not end in .tmp can be opened under its declared package path and reads exactly the bytes that were on disk.", "quantifier": "every disk tree, every declared file", "why_tests_cant": "Contents, names and trees are unbounded.", "anchors": ["pkging/pkgutil/stuff.go: Stuff", "pkging/mem/add.go: Add", "pkging/mem/embed.go: UnmarshalEmbed"]}
{"id": "C45", "title": "Excluded files are not embedded", "statement": "Files ending in .tmp and files the program creates itself (virtual paths) are not embedded.", "quantifier": "every disk tree, every declaration list", "why_tests_cant": "Quantifies over all trees.", "anchors": ["pkging/pkgutil/stuff.go: Stuff", "pkging/mem/add.go: Add", "parser/walk.go: WalkDecl.Files"]}
{"id": "C46", "title": "A failed write is reported", "statement": "If writing the embedded blob to its destination fails or is short, Stuff returns an error.", "quantifier": "every writer behaviour", "why_tests_cant": "Failing writers are not exercised by tests.", "anchors": ["pkging/pkgutil/stuff.go: Stuff"]}
{"id": "C47", "title": "Packaging never leaves a broken or stale output", "statement": "If packaging returns success, the output file is a complete generated source; if it fails, panics or the process dies at any point, the output is either absent or complete and valid.", "quantifier": "every failure point and crash point", "why_tests_cant": "Crash points cannot be enumerated by tests.", "anchors": ["cmd/pkger/cmds/pack.go: Package, Exec"]}
{"id": "C48", "title": "Disk access stays inside the package directory", "statement": "Every path the disk implementation hands to the operating system for Create, Open, Stat, Remove, RemoveAll, MkdirAll and Walk is the package's directory followed by the cleaned package-relative name, hence inside that directory, for any name including ones with .. elements.", "quantifier": "every name, every package", "why_tests_cant": "Names are unbounded and possibly attacker controlled.", "anchors": ["pkging/stdos/stdos.go: Create, Open, Stat, MkdirAll, Remove, RemoveAll, Walk"]}
{"id": "C49", "title": "Disk Walk reports paths that open the visited file", "statement": "Each path string the disk Walk passes to the callback, when given back to Open or Stat, designates the file that was visited.", "quantifier": "every disk tree, every root", "why_tests_cant": "Trees are unbounded.", "anchors": ["pkging/stdos/stdos.go: Walk"]}
{"id": "C50", "title": "Opening through Dir does not leak file handles", "statement": "For each pkger.Dir(d).Open(name) call, after the caller closes the returned file (or after an error) no file handle remains open.", "quantifier": "every sequence of requests", "why_tests_cant": "Leaks show only over long histories.", "anchors": ["pkger.go: Dir.Open", "pkging/stdos/file.go: Open", "pkging/stdos/stdos.go: Open"]}
{"id": "C51", "title": "Disk package lookups are cached and stable", "statement": "Info(p) asks the Go tool at most once per package for which it succeeded; later calls return the same answer without asking; failures are not cached; the package the Pkger was made for is never looked up.", "quantifier": "every sequence of Info calls and tool answers", "why_tests_cant": "Sequences are unbounded.", "anchors": ["pkging/stdos/stdos.go: Info, New"]}
{"id": "C52", "title": "Command line dispatch", "statement": "pkger k args runs the sub-command named k and no other, or prints its usage without running it if -h occurs among the arguments; with no arguments it packs; an unknown k returns an error naming all the arguments and runs nothing.", "quantifier": "every argument list", "why_tests_cant": "Argument lists are unbounded.", "anchors": ["cmd/pkger/cmds/pack.go: Route, New"]}
{"id": "C53", "title": "FileInfo copies are faithful and IsDir agrees with Mode", "statement": "A FileInfo obtained from this library has the same name, size, mode, time and directory flag as its source, later changes to the file do not alter an already obtained FileInfo, and IsDir() agrees with Mode().IsDir().", "quantifier": "every file, every later history", "why_tests_cant": "Quantifies over later histories.", "anchors": ["pkging/file_info.go: NewFileInfo", "pkging/mem/mem.go: Stat, MkdirAll", "pkging/mem/file.go: Stat, Close"]}
{"id": "C54", "title": "Close ends a handle's life", "statement": "After Close, Read and Write on the handle fail; closing twice is harmless and publishes nothing new.", "quantifier": "every handle, every later history", "why_tests_cant": "Quantifies over histories.", "anchors": ["pkging/mem/file.go: Close, Read, Write"]}
{"id": "C55", "title": "Path strings are unambiguous", "statement": "For well-formed paths, formatting is injective and parsing the formatted string gives the path back; so two different stored paths never collide in a Walk, a listing or an embedded blob.", "quantifier": "every pair of well-formed paths", "why_tests_cant": "Names are unbounded.", "anchors": ["pkging/mem/embed.go: MarshalJSON, UnmarshalJSON", "internal/maps/files.go: Keys"]}
{"id": "C56", "title": "Current and Info", "statement": "Current always returns the info the Pkger was made with; Info(p) succeeds exactly for the packages recorded in the Pkger and is not changed by any file operation.", "quantifier": "every history", "why_tests_cant": "An invariant over all histories.", "anchors": ["pkging/mem/mem.go: New, Current, Info"]}
{"id": "C57", "title": "Dump reports exactly what Walk visits", "statement": "Dump writes a JSON document whose Paths object has exactly one entry per path visited by Walk(\"/\"), with that path's details.", "quantifier": "every state", "why_tests_cant": "The set of files is unbounded.", "anchors": ["pkging/pkgutil/dump.go: Dump"]}
{"id": "C58", "title": "Adding a directory embeds its whole tree", "statement": "Add of a directory stores one entry for the directory and for every file and directory below it, regular files with exactly their bytes, and leaves other stored paths alone; adding the same thing twice gives the same result as once.", "quantifier": "every disk tree", "why_tests_cant": "Trees are unbounded.", "anchors": ["pkging/mem/add.go: Add"]}
{"id": "C59", "title": "File metadata survives embedding", "statement": "File mode, directory flag, size, name and modification time (to the nanosecond, as an instant) reported by Stat on an embedded file equal those recorded when packaging.", "quantifier": "every file's metadata", "why_tests_cant": "Values are unbounded.", "anchors": ["pkging/mod_time.go: MarshalJSON, UnmarshalJSON", "pkging/file_info.go: Details"]}
{"id": "C60", "title": "A directory declaration lists the whole tree under the paths the program uses", "statement": "For every directory named by a declaration, the list of files contains every file and directory of the tree below it exactly once, leaving out only what the program itself creates; each is listed with a package path that leads back to it on disk.", "quantifier": "every disk tree and every declaration", "why_tests_cant": "Trees, names and module layouts are unbounded; the failing layouts are unusual.", "anchors": ["parser/walk.go: WalkDecl.Files", "parser/open.go: OpenDecl.Files"]}
{"id": "C61", "title": "Reading an embedded blob never crashes", "statement": "For every byte string, mem.UnmarshalEmbed returns either a Pkger or an error; it never panics.", "quantifier": "every byte string", "why_tests_cant": "The inputs are unbounded; tests try a handful of blobs.", "anchors": ["pkging/mem/embed.go: UnmarshalJSON, UnmarshalEmbed", "pkging/embed/embed.go: Decode"]}
{"id": "C62", "title": "An earlier output does not influence a new one", "statement": "Whatever the output file contained before, pkger's run has the same effect on it from its first step on and the same result; after the first step nothing of the earlier output is left.", "quantifier": "every earlier output, every program, every failure and crash point", "why_tests_cant": "Earlier outputs and crash points cannot be enumerated.", "anchors": ["cmd/pkger/cmds/pack.go: Exec, Package"]}
{"id": "C63", "title": "The file being generated is not embedded in itself", "statement": "Packaging never embeds the output file it is writing.", "quantifier": "every program and every disk tree", "why_tests_cant": "Depends on the declared directories of arbitrary programs.", "anchors": ["cmd/pkger/cmds/pack.go: Package", "pkging/pkgutil/stuff.go: Stuff", "parser/walk.go: WalkDecl.Files"]}
{"id": "C64", "title": "Stat after Close reports what was written", "statement": "After Create, any writes to the handle and Close, Stat on the path reports the base name, the number of bytes written, mode 0644, no directory, and the time of Close as modification time (the time of Create if nothing was written), as long as the path is not bound anew.", "quantifier": "every name, every sequence of writes, every interleaved and later history", "why_tests_cant": "Quantifies over all interleavings with other operations.", "anchors": ["pkging/mem/file.go: Write, Close, Stat", "pkging/mem/mem.go: Create, Stat"]}
{"id": "C65", "title": "A directory handle on disk stays in its directory and package", "statement": "For a directory handle d of the disk implementation, d.Open(name) with a rooted name opens the file at the directory of d's package, followed by d's own name, followed by the cleaned name, and nothing outside d's directory.", "quantifier": "every handle, every name, every answer of the operating system", "why_tests_cant": "Names are unbounded and come from requests.", "anchors": ["pkging/stdos/file.go: Open", "pkging/stdos/stdos.go: Open"]}
{"id": "C66", "title": "Options are read as written", "statement": "Reading the options of the command line accepts exactly the argument lists that start with options in one of the usual forms (-f, -f=v, -f v, one or two dashes) followed by nothing, by an argument that is no option, or by --; the options then have exactly the values written, the last output directory counts, all includes are kept in order, and the remaining arguments are passed on unchanged. Everything else ends the program before anything runs.", "quantifier": "every set of options, every argument list", "why_tests_cant": "Argument lists are unbounded and values can look like options.", "anchors": ["cmd/pkger/cmds/pack.go: Flags, Route", "cmd/pkger/cmds/pack.go: slice.Set"]}
{"id": "C67", "title": "Reporting commands change nothing on disk", "statement": "The commands stat, info and list create, change and remove no file.", "quantifier": "every argument list, every state of the disk and every answer of the operating system", "why_tests_cant": "Quantifies over all states of the disk.", "anchors": ["cmd/pkger/cmds/stat.go: Exec", "cmd/pkger/cmds/info.go: Exec", "cmd/pkger/cmds/list.go: Exec"]}
{"id": "C68", "title": "pkger list shows what packaging embeds", "statement": "The files pkger list shows are exactly the files packaging with the same includes goes through, in the same order.", "quantifier": "every program, every disk tree, every list of includes", "why_tests_cant": "Quantifies over all programs and disk trees.", "anchors": ["cmd/pkger/cmds/list.go: Exec", "cmd/pkger/cmds/pack.go: Package", "parser/decl.go: Files"]}
{"id": "C69", "title": "pkger stat closes what it opens", "statement": "After pkger stat has run, successfully or not, exactly the files that were open before are open.", "quantifier": "every argument list, every answer of the operating system", "why_tests_cant": "Failures of the operating system at every point cannot be enumerated.", "anchors": ["cmd/pkger/cmds/stat.go: Exec", "pkging/stdos/stdos.go: Open"]}
{"id": "C70", "title": "An embedded Pkger is as good as a new one", "statement": "The Pkger a program gets from its embedded blob knows its package and no other, finds an idle file of the right path and size at every path, and whatever calls follow, it behaves as a Pkger made by New would with these files in it.", "quantifier": "every reachable Pkger that was embedded, every sequence of calls made after loading it", "why_tests_cant": "Quantifies over all embedded contents and all later histories of calls.", "anchors": ["pkging/mem/embed.go: UnmarshalEmbed", "pkging/mem/embed.go: UnmarshalJSON", "pkging/mem/mem.go: New"]}
{"id": "C71", "title": "Concurrent readers do not disturb each other", "statement": "Any number of goroutines that only open, stat, read, seek, list, walk and close, each through handles of its own, get in every interleaving of their calls exactly the results each would get alone, each finishes, and what is stored stays unchanged.", "quantifier": "every reachable Pkger, every family of (adaptive) reading programs, every schedule", "why_tests_cant": "Schedules, and programs that choose each call by the answers so far, cannot be enumerated.", "anchors": ["pkging/mem/mem.go: Open, Stat, Walk", "pkging/mem/file.go: Open, Read, Seek, Close, Readdir"]}
{"id": "C72", "title": "The file server delivers files exactly", "statement": "Served over HTTP through a handle of a directory or through pkger.Dir, every stored regular file is answered with status 200, its exact length and its exact bytes, however its path is spelled and whatever the buffer sizes; HEAD gets the same without body; what is not stored is answered with 404.", "quantifier": "every reachable Pkger, every served directory, every request path, every sequence of copy sizes", "why_tests_cant": "Quantifies over all contents, paths, spellings and buffer sizes.", "anchors": ["pkger.go: Dir.Open", "pkging/mem/file.go: Open, Read, Seek, Stat", "cmd/pkger/cmds/serve.go: Exec"]}
{"id": "C73", "title": "The file server delivers ranges exactly", "statement": "A request for ranges of a stored regular file is answered with exactly the bytes of each range.", "quantifier": "every reachable Pkger, every file, every list of satisfiable ranges", "why_tests_cant": "Quantifies over all contents and all lists of ranges.", "anchors": ["pkging/mem/file.go: Seek, Read", "pkger.go: Dir.Open"]}
{"id": "C74", "title": "The file server's directory pages are right", "statement": "A directory asked for without final slash is redirected; with final slash it is answered with its index page if it has one, and otherwise with a page of links to exactly its children, in order, directories marked with a slash.", "quantifier": "every reachable Pkger, every served directory, every stored directory below it", "why_tests_cant": "Quantifies over all trees.", "anchors": ["pkging/mem/file.go: Readdir, Open, Stat", "pkger.go: Dir.Open"]}
{"id": "C75", "title": "Simultaneous requests get the answers they would get alone", "statement": "Whatever number of requests is in progress at once, in whatever interleaving, each is answered, with the answer it would get if it were the only one, and nothing stored changes.", "quantifier": "every reachable Pkger, every family of requests, every schedule", "why_tests_cant": "Schedules cannot be enumerated.", "anchors": ["pkger.go: Dir.Open", "pkging/mem/file.go: Open, Read, Seek, Close", "cmd/pkger/cmds/serve.go: Exec"]}
{"id": "C76", "title": "pkger tidies up once and tells whether it succeeded", "statement": "However the work of pkger ends - with success, an error or a panic - go mod tidy is run exactly once, after everything else, and the exit status is 0 exactly if the work succeeded.", "quantifier": "every sequence of effects of the work, every way it can end", "why_tests_cant": "Panics and exits at every point cannot be enumerated.", "anchors": ["cmd/pkger/main.go: main", "cmd/pkger/main.go: run"]}
{"id": "C77", "title": "Exit status 0 means a complete output", "statement": "If pkger, asked to package, ends with status 0, the generated file is complete; if it cannot find, read or embed something, it ends with status 1.", "quantifier": "every program, disk, argument list and old output, every behaviour of writes", "why_tests_cant": "Quantifies over all programs, disks and failures.", "anchors": ["cmd/pkger/main.go: main", "cmd/pkger/cmds/pack.go: Exec, Package, Route"]}
{"id": "C78", "title": "The file list is exactly what the declarations stand for", "statement": "The list of files to embed consists of exactly the files the declarations name and all entries of the directories they name, except paths the program itself creates and what is below them; a declared path that is neither on disk nor created is an error.", "quantifier": "every disk, every list of declarations that stay in their modules, every sort and map order", "why_tests_cant": "Quantifies over all disks and all combinations of declarations.", "anchors": ["parser/decl.go: Decls.Files", "parser/open.go: OpenDecl.Files", "parser/stat.go: StatDecl.Files", "parser/http.go: HTTPDecl.Files", "parser/walk.go: WalkDecl.Files", "parser/include.go: IncludeDecl.Files"]}
{"id": "C79", "title": "The embedded file system contains what the program declares", "statement": "For a program whose declarations name paths of its own package that are on disk or that it creates itself, packaging succeeds, and in the file system read back from the generated blob each declared path and everything below it opens with the details and bytes it had on disk when packaging; nothing else is stored.", "quantifier": "every program, disk, map order, gzip implementation with a correct inverse", "why_tests_cant": "Relates the whole chain from source text to the bytes read at run time, for all programs and disks.", "anchors": ["parser/parser.go: Parse, Decls", "parser/decl.go: Files", "pkging/pkgutil/stuff.go: Stuff", "pkging/embed/embed.go", "pkging/mem/embed.go: MarshalJSON, UnmarshalJSON", "pkging/mem/mem.go: Open"]}
{"id": "C80", "title": "Each disk operation is the operating system's operation of the same name", "statement": "On the disk Pkger, Remove, RemoveAll, Stat, Open, Create and MkdirAll of an ordinary name do exactly what the operating system's operation of that name does at the package's directory joined with the cleaned name: same effect, same result, and opened files carry the details the operating system reports and the path the name stands for.", "quantifier": "every operating system behaviour and state, every ordinary name, every state of the package cache", "why_tests_cant": "The operating system is an arbitrary state machine; a test only sees one file system.", "anchors": ["pkging/stdos/stdos.go: Create, MkdirAll, Open, Stat, Remove, RemoveAll"]}
{"id": "C81", "title": "Running from the disk and running from the embedded files agree", "statement": "If the disk shows the files that were packaged, then for every declared path and everything below it Open, Stat and Walk give the same from the disk Pkger and from the Pkger read from the embedded blob, in the same order.", "quantifier": "every program, disk, operating system, history of uses of the disk Pkger, and way to write the path", "why_tests_cant": "Compares two implementations for all programs, trees and histories.", "anchors": ["pkging/stdos/stdos.go: Open, Stat, Walk", "pkging/mem/mem.go: Open, Stat, Walk", "pkging/pkgutil/stuff.go: Stuff", "pkging/embed/embed.go", "parser/parser.go: Parse"]}
{"id": "C82", "title": "Serving files from the disk answers every request as it should be", "statement": "The file server on the disk Pkger (pkger serve, and a program that has not been packaged) answers each request exactly as a file server on the tree of files should: content, ranges, conditions, index pages, listings in lexical order, redirects and 404; a path below a regular file gets 500. Afterwards exactly the files are open that were open before (except with pkger.Dir, which leaves its directory handle open).", "quantifier": "every operating system that shows a fixed tree, however few bytes it reads at a time and in whatever order it lists directories; every tree, served directory, request and number of requests", "why_tests_cant": "Ranges over all trees, requests, read sizes and directory orders.", "anchors": ["cmd/pkger/cmds/serve.go: Exec", "pkging/stdos/file.go: Open, Readdir, Stat, Close", "pkging/stdos/stdos.go: Open", "pkger.go: Dir"]}
{"id": "C83", "title": "The file server answers the same from the disk and from the embedded files", "statement": "After packaging, every HTTP request for a directory the program serves is answered from the embedded files exactly as it is answered from the disk with the files that were packaged.", "quantifier": "every program, disk, operating system, served directory below a declared path, request, buffer size and later state of both Pkgers", "why_tests_cant": "Compares two implementations through a client with unboundedly many inputs, for all trees and histories.", "anchors": ["pkging/stdos/file.go: Open, Readdir, Stat", "pkging/mem/file.go: Open, Readdir, Stat, Read, Seek", "pkging/pkgutil/stuff.go: Stuff", "cmd/pkger/cmds/serve.go: Exec", "pkger.go: Dir"]}
{"id": "C84", "title": "pkger path tells what its arguments stand for", "statement": "pkger path with one or more arguments that are paths prints a JSON object with exactly these arguments as members, in lexical order, each telling the package and name it stands for; if one of them is no path, nothing is printed and the exit status is 1.", "quantifier": "every argument list, every package and every form in which package here writes paths", "why_tests_cant": "Argument lists, texts and their escapes in JSON are unbounded.", "anchors": ["cmd/pkger/cmds/path.go: Exec"]}
{"id": "C85", "title": "pkger parse tells the declarations of the packages named", "statement": "pkger parse prints a JSON object with exactly the packages named (the one in the current directory if none is), each with the list of its declarations in order: the function called, its argument and the file it stands for. If one of them cannot be found or read, nothing is printed and the exit status is 1.", "quantifier": "every argument list, program, disk and Go tool", "why_tests_cant": "Quantifies over all programs and texts.", "anchors": ["cmd/pkger/cmds/parse.go: Exec", "parser/open.go: MarshalJSON", "parser/mkdir.go: MarshalJSON"]}
{"id": "C86", "title": "From what pkger list prints the files can be told", "statement": "pkger list prints the import path and then, in order, the files that would be embedded: as JSON with absolute name, path and package of each if the last -json says so, else one path per line; from either the list can be told again.", "quantifier": "every argument list, program, disk", "why_tests_cant": "Quantifies over all programs, disks and names.", "anchors": ["cmd/pkger/cmds/list.go: Exec"]}
{"id": "C87", "title": "pkger stat and pkger info print the truth", "statement": "pkger stat prints, for each argument in turn (the package's directory if there is none), the details of the file, or of each entry of the directory, and pkger info what is known of the package, each as a JSON document from which it can be told; at the first argument that names nothing they stop with status 1 after printing what was asked for before.", "quantifier": "every operating system that shows a fixed tree, every tree, Go tool and argument list", "why_tests_cant": "Ranges over all trees, operating systems and argument lists.", "anchors": ["cmd/pkger/cmds/stat.go: Exec", "cmd/pkger/cmds/info.go: Exec", "pkging/file_info.go: String"]}
{"id": "C88", "title": "What the program does with its arguments as a whole", "statement": "Unknown arguments end with status 1 and options that are not understood with the status of the flag package, without printing a result or changing anything; help prints the usage asked for with status 0 and does nothing else; only packing and list touch the generated file; usage shows every sub-command and exactly the options there are, with their defaults.", "quantifier": "every argument list, every surrounding", "why_tests_cant": "Argument lists are unbounded.", "anchors": ["cmd/pkger/main.go: run", "cmd/pkger/cmds/pack.go: Route, New", "cmd/pkger/cmds/usage.go: Usage", "cmd/pkger/cmds/serve.go: Flags"]}
{"id": "C89", "title": "pkger serve prints what it serves and closes it", "statement": "pkger serve opens what its first argument names (the package's directory if there is none), prints its path, and serves it; every request is answered as it should be for the files there; when the server stops the file is closed. If there is nothing, the server is not started. The exit status is always 1.", "quantifier": "every operating system that shows a fixed tree, every tree, argument list and sequence of requests", "why_tests_cant": "Ranges over all trees, operating systems and requests.", "anchors": ["cmd/pkger/cmds/serve.go: Exec"]}
{"id": "C90", "title": "Goroutines that read may be interrupted anywhere", "statement": "Goroutines that only read from one in-memory Pkger, through handles of their own or shared handles that cannot change, do not disturb each other even if they are interrupted between any two accesses to memory and sync.Map.Range visits the keys in any order: each gets what it would get alone, each can always end, and nothing stored is changed. In particular this holds for simultaneous HTTP requests. A call that is not interrupted does what the method as a whole does.", "quantifier": "every reachable Pkger whose paths have names, every number of goroutines, all their programs, every interleaving of single accesses, every order of Range, every clock", "why_tests_cant": "Interleavings inside calls are not under the control of a test, and there are unboundedly many.", "anchors": ["pkging/mem/mem.go: Open, Stat, Walk", "pkging/mem/file.go: Read, Seek, Close, Readdir, Open", "internal/maps/files.go: Keys, Load", "internal/maps/infos.go"]}
{"id": "C91", "title": "Files written at the same time at different paths are not lost", "statement": "A goroutine creates a file in an in-memory Pkger, writes pieces to it and closes it, while other goroutines do anything they like with other paths, everybody interrupted between any two accesses to memory. If Create returned a file, then once the goroutine has ended the file is there, with exactly the bytes written, their number as its size, the base of the name as its name, mode 0644, and stays. Create does return a file if the package is the Pkger's own and the directory is / or is there and nobody deletes it. So any number of goroutines writing at different paths all have their files in place, and each can always end.", "quantifier": "every reachable Pkger, every number of goroutines and their programs, all names and contents, every interleaving of single accesses, every order of Range, every clock", "why_tests_cant": "Interleavings inside calls are not under the control of a test, and there are unboundedly many.", "anchors": ["pkging/mem/mem.go: Create, MkdirAll, Remove, RemoveAll", "pkging/mem/file.go: Write, Close", "internal/maps/files.go: Store, Delete, Load"]}
{"id": "C92", "title": "Writers of the same file do not mix their contents", "statement": "Any number of goroutines create, write and close the same file in an in-memory Pkger, while others make directories, remove and read, everybody interrupted anywhere. Whoever opens the file and reads gets no such file, or the beginning of nothing, of what was there before, or of everything one of the writers wrote; and the size of the opened file is the number of its bytes.", "quantifier": "every reachable Pkger, every number of goroutines, all contents, every interleaving of single accesses, every clock", "why_tests_cant": "Interleavings inside calls are not under the control of a test, and there are unboundedly many.", "anchors": ["pkging/mem/mem.go: Create, Open", "pkging/mem/file.go: Write, Close, Read"]}
{"id": "C93", "title": "Walk while the file system changes", "statement": "While one goroutine walks an in-memory Pkger, others create and write files, make directories and remove files, everybody interrupted anywhere. Walk succeeds, visits no path twice, visits in the order of the names, visits every path below the root that is there all the time, and only paths that were there at some moment.", "quantifier": "every reachable Pkger, every number of goroutines and their programs, every interleaving of single accesses, every order in which sync.Map.Range visits the keys", "why_tests_cant": "Interleavings inside calls are not under the control of a test, and there are unboundedly many.", "anchors": ["pkging/mem/mem.go: Walk", "internal/maps/files.go: Keys"]}
{"id": "C94", "title": "Removing while others write", "statement": "One goroutine calls Remove or RemoveAll on an in-memory Pkger while others do anything, everybody interrupted anywhere. When it has ended, the file named (for RemoveAll, everything whose name begins with the one named) is gone unless somebody may have stored it anew; RemoveAll reports no error, Remove reports success or that there is no such file. Whatever nobody stores or deletes keeps its file object at every moment.", "quantifier": "every reachable Pkger, every number of goroutines and their programs, every interleaving of single accesses, every order in which sync.Map.Range visits the keys", "why_tests_cant": "Interleavings inside calls are not under the control of a test, and there are unboundedly many.", "anchors": ["pkging/mem/mem.go: Remove, RemoveAll", "internal/maps/files.go: Delete, Range"]}
{"id": "C95", "title": "Calls made at the same time are as if made one after the other", "statement": "Calls of Create, MkdirAll, Remove and RemoveAll made by different goroutines at the same time answer, and leave behind, what they would have answered and left behind one after the other in some order.", "quantifier": "every reachable Pkger, every number of goroutines, all names, every interleaving of single accesses, every order of Range", "why_tests_cant": "Interleavings inside calls are not under the control of a test, and there are unboundedly many; for each, an order has to be found.", "anchors": ["pkging/mem/mem.go: Create, MkdirAll, Remove, RemoveAll"]}
{"id": "C96", "title": "No data races", "statement": "Goroutines that share an in-memory Pkger, and nothing else, never access the same file object at the same time with one of them writing.", "quantifier": "every reachable Pkger, every number of goroutines and their programs, every interleaving of single accesses", "why_tests_cant": "The race detector sees the executions that happen, not all.", "anchors": ["pkging/mem/mem.go: Open, Create, Stat, Walk", "pkging/mem/file.go: Write, Close, Read, Stat"]}
{"id": "C97", "title": "Files made at run time behave the same on the disk and in memory", "statement": "A program that creates, writes, reads, stats, lists and removes files and makes directories through pkging.Pkger gets the same answers from the in-memory Pkger as from the disk Pkger, each call chosen by the answers before, and both have the same files afterwards.", "quantifier": "every program (a tree of calls that branches on answers), every tree of files, every operating system that keeps the stated laws, every reachable in-memory Pkger with the same files", "why_tests_cant": "The conformance suite runs a fixed list of short call sequences on each implementation; agreement is about all sequences and all trees.", "anchors": ["pkging/pkger.go: Pkger", "pkging/mem/mem.go: Create, MkdirAll, Open, Stat, Remove, RemoveAll", "pkging/mem/file.go: Write, Read, Readdir, Close", "pkging/stdos/stdos.go: Create, MkdirAll, Open, Stat, Remove, RemoveAll"]}
{"id": "C98", "title": "Programs that read from the disk at the same time do not disturb each other", "statement": "Any number of goroutines read through one disk Pkger at once: they open, stat, list, read, seek and close files, or answer requests of a file server. Each gets the answers it would get if it were alone, comes to an end if it is let run, and no files stay open that it would not have left open alone.", "quantifier": "every operating system that shows a fixed tree, every tree, every number of goroutines and their programs, every interleaving of system calls and accesses to the map of packages", "why_tests_cant": "Schedules, operating systems and programs cannot be enumerated.", "anchors": ["pkging/stdos/stdos.go: Info, Open, Stat, Walk", "pkging/stdos/file.go: Open, Readdir, Close, Stat", "cmd/pkger/cmds/serve.go: Exec", "pkger.go: Dir.Open"]}
{"id": "C99", "title": "What the disk Pkger knows of a package does not change", "statement": "Once Info of a package has succeeded on the disk Pkger, the package stays known, every later Info of it gives the same answer, and the Go tool is not asked about it again, also when several goroutines use the Pkger.", "quantifier": "every operating system and Go tool, every number of goroutines and their programs, every interleaving", "why_tests_cant": "It needs a particular interleaving of two lookups and a Go tool whose answers change; races are not found by running.", "anchors": ["pkging/stdos/stdos.go: Info", "internal/maps/infos.go: Load, Store"]}
{"id": "C100", "title": "A program that only reads gets the same from the disk as from the embedded files", "statement": "A program that opens files by name or from an open directory, looks at them, lists and walks directories, reads, positions and closes, where each step may depend on everything seen so far, returns the same result during development, when it reads from the disk, and after it has been packaged, when it reads the embedded files. In particular the example programs of the repository print the same.", "quantifier": "every program over the reading calls, every tree of files, every operating system that shows it, every declared path", "why_tests_cant": "There are infinitely many programs, trees and operating systems; tests compare single calls.", "anchors": ["pkging/mem/file.go: Open, Read, Seek, Close, Readdir, Stat", "pkging/mem/mem.go: Open, Stat", "pkging/mem/mem.go: Walk", "pkging/stdos/file.go: Open, Close, Readdir, Stat", "pkging/stdos/stdos.go: Open, Stat, Walk", "examples/open/pkger/main.go: run", "examples/stat/pkger/main.go: run", "examples/walk/pkger/main.go: run"]}
{"id": "C101", "title": "Modification times are written as the calendar shows them", "statement": "The modification time in the embedded data is written as the date and time of day that a clock shows which read 1970-01-01 00:00:00 at second 0 and goes on second by second, by the rules of the Gregorian calendar, ahead of UTC by the offset of the local zone; the fraction has every digit of the nanoseconds up to zeros at the end, and the offset follows in hours and minutes.", "quantifier": "every instant whose local year is between 0 and 9999, every offset below 100 hours", "why_tests_cant": "A test compares a handful of dates; an error in one month, in leap centuries or before 1970 is not met by them.", "anchors": ["pkging/mod_time.go: MarshalJSON", "pkging/file_info.go: Details"]}
{"id": "C102", "title": "Names survive the embedded form exactly if they are Unicode text", "statement": "A string written into the embedded data and read back is the same string if and only if it is the UTF-8 encoding of a list of Unicode characters; and what is read back is always such text.", "quantifier": "every byte string", "why_tests_cant": "Byte strings are infinitely many, and the borders (overlong forms, surrogates, the last code point, cut-off characters) are many cases that random tests hardly meet.", "anchors": ["pkging/embed/embed.go: Data", "pkging/embed/file.go: File", "pkging/mem/embed.go: MarshalJSON, UnmarshalJSON", "pkging/file_info.go: Details"]}
{"id": "C103", "title": "Files reached through symbolic links are embedded like the files they lead to", "statement": "If every listed file and every entry below a listed directory can be opened, links followed, then packaging succeeds, and every embedded entry shows the details and the bytes that os.Stat and os.Open show of it. Without symbolic links, this is what packaging does on a plain tree.", "quantifier": "every disk with symbolic links (relative, absolute, chained, dangling, circular), every set of declarations of the own package", "why_tests_cant": "The code looks at a path in two ways - filepath.Walk by Lstat, os.Open by following links - and which of the two wins depends on which of the entries are listed themselves; the test suite has no links at all.", "anchors": ["pkging/mem/add.go: Add", "pkging/pkgutil/stuff.go: Stuff", "parser/walk.go: Files", "parser/open.go: Files", "parser/decl.go: Files"]}
{"id": "C104", "title": "A Parser can be used again", "statement": "Decls always answers for the disk as it is at the time of the call, whatever was called before and however that ended: nothing is counted twice and nothing stale remains. Parse reports how the first parse ended. When DeclsMap reports no error its map holds all declarations found on the disk at one of the calls, and no later call changes a map it has handed out.", "quantifier": "all modules, includes and Go tools; all finite sequences of calls of Decls, DeclsMap and Parse on one Parser; all disks, different from call to call", "why_tests_cant": "The order of calls, the state of the disk at each of them, and which of them fail and where, are unbounded; the tests make one call on one object.", "anchors": ["parser/parser.go:19-32", "parser/parser.go:140-173", "parser/parser.go:175-228"]}
{"id": "C105", "title": "A file parsed alone gives what it gives with its directory", "statement": "ParseFile succeeds on every .go file of a directory on which ParseDir succeeds, and the declarations found are the same; it reports names that are missing or lead to a directory. The path recorded for a source leads to that file.", "quantifier": "all disks, directories, files, syntax trees and Go tools", "why_tests_cant": "Directories and source texts are unbounded; no test calls ParseFile, and none looks at the recorded path.", "anchors": ["parser/parser.go:44-63", "parser/parser.go:65-89", "parser/parser.go:91-138"]}
{"id": "C106", "title": "The generated maps behave as maps", "statement": "For every sequence of calls on a zero Infos or Files: Load answers what the last Store or Delete of the key said; Range calls the callback once for each present entry and stops exactly when told to; Keys answers the present keys, each once, ordered by their text, whatever the visiting order or sorting algorithm; MarshalJSON does not panic, and what it writes can be read back by UnmarshalJSON, which sets the written keys and leaves the others alone.", "quantifier": "all sequences of calls, keys, values, callbacks, visiting orders and sorting algorithms", "why_tests_cant": "Sequences of calls, keys and visiting orders are unbounded; the repository has no test for these types.", "anchors": ["internal/maps/infos.go:17-103", "internal/maps/files.go:18-120"]}
{"id": "C107", "title": "A declaration's position leads to its argument", "statement": "The position recorded for a declaration names the file it was found in and the offset, line and column at which the first argument of its call is written, whatever other files of the directory are parsed into the same set; if the argument is a literal, the text there is that literal and its value is the declaration's. The declarations of one function in a file are in the order in which they stand in it.", "quantifier": "all source texts, syntax trees, files parsed with them, disks and Go tools", "why_tests_cant": "Source texts and the number of files in a directory are unbounded; no test looks at positions.", "anchors": ["parser/source.go:72-201", "parser/parser.go:44-63", "parser/parser.go:115-137", "parser/open.go:12-16"]}
{"id": "C108", "title": "What is written through a layered Pkger is read through it", "statement": "After Create on a layered Pkger, writes to the file it gave and Close, with any other calls on the stack, its files and its layers in between that do not name the path, Open on the layered Pkger delivers exactly the concatenation of the written chunks.", "quantifier": "all stacks of in-memory layers in all reachable states, all names, chunks and interleaved calls", "why_tests_cant": "Stacks, their contents and histories are unbounded; the repository does not test writing through Wrap or Apply.", "anchors": ["pkging/wrap.go:63-97", "pkging/mem/mem.go:88-123", "pkging/mem/mem.go:165-192", "pkging/mem/file.go:45-69"]}
{"id": "C109", "title": "pkger.Dir on a layered Pkger finds what Open finds", "statement": "If a layered Pkger opens a directory and a file in it, pkger.Dir of that directory opens the file too, and the directory's Readdir lists it.", "quantifier": "all stacks of in-memory layers in all reachable states, all directories and names", "why_tests_cant": "Stacks and their contents are unbounded; the repository tests Dir on one Pkger only.", "anchors": ["pkger.go:32-40", "pkging/wrap.go:87-97", "pkging/mem/file.go:125-203"]}
{"id": "C110", "title": "Embedding several modules: the order of Apply does not matter", "statement": "When several modules with their own embedded files are part of one program, each name leads to the same file, with the same details, and each package to the same description, in whatever order the modules' generated files call Apply.", "quantifier": "all numbers of modules, their files and histories, all orders of Apply, all names", "why_tests_cant": "The order follows from the import graph of the program; the repository has no test with two embedded modules.", "anchors": ["apply.go:10-19", "cmd/pkger/cmds/pack.go:150", "pkging/wrap.go:52-61", "pkging/wrap.go:87-109", "pkging/mem/mem.go:165-205"]}
{"id": "C111", "title": "Positions of declarations through the scan and in the output of pkger parse", "statement": "Every declaration found in a scan of a module carries a position that leads to its call's argument in a .go file of that module (includes from the command line carry none), and pkger parse prints that position with the declaration.", "quantifier": "all disks, modules, sources, includes, map iteration orders and arguments of pkger parse", "why_tests_cant": "The repository's tests look at no position; every directory has its own FileSet, and the position depends on all files parsed before into it.", "anchors": ["parser/parser.go:91-138", "parser/parser.go:175-240", "parser/source.go:72-198", "parser/include.go:21-47", "cmd/pkger/cmds/parse.go:31-73"]}
{"id": "C112", "title": "Reading embedded data does not depend on unknown members or their order", "statement": "Reading a Pkger from a document ignores members of unknown names at every level (document, file, info, details), does not depend on the order of members of different names, takes the files of several members together, a last null for a file's info means no details, and a file whose document leaves a member out is read without what that member would have given (no contents rather than empty ones).", "quantifier": "all documents, all Pkgers read into, all visiting orders of the map of files", "why_tests_cant": "The repository's tests read only documents the same version has just written; documents written by other versions or tools are unbounded in number.", "anchors": ["pkging/mem/embed.go:46-79", "pkging/embed/embed.go:51-55", "pkging/embed/file.go:8-14", "pkging/file_info.go:9-20"]}
{"id": "C113", "title": "Embedded data that is cut off is never accepted", "statement": "If a document can be read into a Pkger, every prefix of it that leaves out more than trailing white space is rejected with the error of the JSON reader, leaving the Pkger as it was; white space after the document does not matter and anything else after it is rejected. In particular no proper prefix of what MarshalJSON writes is accepted.", "quantifier": "all documents, all Pkgers written and read into, all points of cutting, all bytes following", "why_tests_cant": "The repository has no test with damaged data; the number of documents and of cutting points is unbounded.", "anchors": ["pkging/mem/embed.go:46-79", "pkging/mem/embed.go:13-43"]}
{"id": "C114", "title": "Packaging is reproducible", "statement": "What Stuff writes is determined by the files on the disk and the calls in the program: packaging at another time, on a machine in another time zone, or with other iteration orders of Go's maps (both the map of files found and the maps MarshalJSON visits with Range) gives the same bytes.", "quantifier": "all programs, disks, modules, times, time zones and iteration orders of maps", "why_tests_cant": "Map iteration order and time zone are not under the control of a test, and the tests run in one zone; the set of programs and disks is infinite.", "anchors": ["pkging/pkgutil/stuff.go:15-61", "pkging/mem/add.go:16-104", "pkging/mem/embed.go:13-43", "pkging/mod_time.go:12-15"]}
{"id": "C115", "title": "Only JSON is read, and only JSON is written", "statement": "UnmarshalJSON rejects every text that is not a JSON text by the grammar of RFC 8259 (on bytes) and leaves the Pkger as it was, and UnmarshalEmbed does not load a blob that holds one; every JSON text is taken apart, so that the outcome depends on the value it denotes only; and MarshalJSON writes a JSON text for every Pkger, whatever bytes its names and contents have, as do the commands that print JSON (list -json, path, parse, info, stat).", "quantifier": "all byte strings, all Pkgers", "why_tests_cant": "The set of malformed texts is infinite; the tests only read what the code itself wrote, for a handful of Pkgers.", "anchors": ["pkging/mem/embed.go:13-43", "pkging/mem/embed.go:46-79", "pkging/mem/embed.go:81-92"]}
{"id": "C116", "title": "LoadFiles copies a directory into a Pkger", "statement": "LoadFiles, given a directory, leaves in the Pkger (in memory or on the disk) exactly what was there before, the directories on the way and every entry of the directory whose own name does not begin with a dot, as a directory or as a file with the same bytes, under the name it has in the directory; it succeeds for every directory that is not itself hidden, and directories keep their modes.", "quantifier": "all trees of any depth and contents, all Pkgers reached by any history, all divisions of the contents into writes", "why_tests_cant": "It is the loader of the test suite itself: the tests use it for one tree of a few files without hidden directories; the set of trees is infinite.", "anchors": ["pkging/pkgtest/load_ref.go:61-153", "pkging/mem/mem.go:88-162", "pkging/stdos/stdos.go:32-54"]}
{"id": "C117", "title": "A copied directory can be served over HTTP", "statement": "A directory that LoadFiles copied into a Pkger can be opened and served with net/http's file server, which then answers every plain request as it would for the directory itself without its hidden entries: files with their bytes, directories by a redirect to the path with a slash or by their index page or a list of their entries, and everything else with 404.", "quantifier": "all trees of any depth and contents, all states of the Pkger before, all requests without conditions and ranges, all buffer sizes of the server", "why_tests_cant": "HTTPTest compares the two servers for four paths of one tree; trees and paths are infinitely many.", "anchors": ["pkging/pkgtest/http.go:15-66", "pkging/pkgtest/load_ref.go:61-153", "pkging/mem/file.go:170-203"]}
{"id": "C118", "title": "LoadFile copies one file, which can be inspected, read and removed", "statement": "LoadFile puts the file it is given into the Pkger, in memory or on the disk, under the same name, and changes nothing else; it fails for a directory. Afterwards Stat reports a regular file of that size, Open and ReadAll deliver exactly its bytes, Remove succeeds, and then Stat fails and everything else is as it was before.", "quantifier": "all files of any content, all names, all states of the Pkgers with the directory in them, all divisions of the content into writes and all buffer sizes", "why_tests_cant": "StatTest, OpenTest and RemoveTest try one file go.mod in an empty Pkger; the contents, names and states before are infinitely many.", "anchors": ["pkging/pkgtest/load_ref.go:14-59", "pkging/pkgtest/stat.go:12-25", "pkging/pkgtest/open.go:14-45", "pkging/pkgtest/remove.go:10-24"]}
{"id": "C119", "title": "Walk of a copied directory tells what LoadFiles returned", "statement": "After LoadFiles has copied a directory into a Pkger, Walk of that directory returns nil and calls the function once for each entry that LoadFiles returned, and for nothing else, with the path it was copied to, its name and whether it is a directory, in the order in which LoadFiles returned them.", "quantifier": "all directory trees of any depth and size, all places to copy them to, all states of the Pkger before, all divisions of the contents into writes", "why_tests_cant": "WalkTest walks one small directory in which the two orders happen to agree; the trees and names are infinitely many, and a name with a byte below '/' after that of a directory changes the order.", "anchors": ["pkging/pkgtest/walk.go:11-36", "pkging/pkgtest/load_ref.go:61-153", "pkging/mem/mem.go:208-252"]}
{"id": "C120", "title": "What is created, made or copied is there, and RemoveAll takes it away again", "statement": "In memory and on the disk alike: what is written to a file that was just created where nothing was is read from it; MkdirAll where nothing was leaves a directory there; both can be opened and tell their package, path and last name; RemoveAll after MkdirAll, or after LoadFiles, takes away the directory with all that is in it, so that Stat fails; and in each case nothing else is changed but for the directories made on the way.", "quantifier": "all names, all states of the two Pkgers with the same files, all contents and divisions into writes, all directory trees that LoadFiles copies, all buffer sizes", "why_tests_cant": "CreateTest, MkdirAllTest and RemoveAllTest try one name each in an empty Pkger and do not look at anything else; the names, states and contents are infinitely many.", "anchors": ["pkging/pkgtest/create.go:12-42", "pkging/pkgtest/mkdir_all.go:10-28", "pkging/pkgtest/remove_all.go:10-23", "pkging/pkgtest/load_ref.go:61-153"]}

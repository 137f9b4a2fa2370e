# Formal model of Plywood (runtime and friends) in Lean 4

## What is here

* `properties.jsonl` – the properties, in English, one per line.
* `lean/Verif/<Area>/Model*.lean` – the model: executable Lean functions transcribed from the C++,
  each definition with a comment naming the file and lines of `/repo` it follows
  (paths are relative to `/repo/repos/plywood/src`; `rt/` abbreviates `runtime/ply-runtime/`).
* `lean/Verif/<Area>/Spec*.lean` – the independent specification where one is needed.
* `lean/Verif/<Area>/Lemmas*.lean` – helper lemmas.
* `lean/Verif/<Area>/Props*.lean` – the property theorems (`Cnn_…`), each with an `example`
  that exercises its hypotheses on concrete data.
* `MANIFEST.json` – which theorems settle which property, and what is missing where the status is partial.
* `AXIOMS.md` – the axioms each theorem in the manifest depends on (output of `#print axioms`).
* `seeded/LOG.jsonl` – the record of deliberate bugs put into a scratch copy of the model, and
  which theorems noticed.

## Trusted base

* The Lean 4.33.0 kernel, and the axioms `propext`, `Classical.choice`, `Quot.sound`; nothing else, see
  `AXIOMS.md` theorem by theorem. No own axioms, no `sorry`, no `native_decide`/`bv_decide`.
  `decide +kernel` is used on finite tables (all 256 bytes, all hex digits, …) and on concrete witnesses;
  it adds no axiom.
* The transcription from C++ to Lean, which is by hand. The comments give the lines so it can be
  audited. Where C++ has undefined behaviour or a failing assertion (`PLY_ASSERT`), the model returns a
  distinct outcome (`none`, or a constructor of a result type) instead of silently totalising; the
  theorems say when that outcome is impossible.
* The specifications (`Spec*.lean`), which say what is proved.
* Assertions are taken to be enabled (a debug build); "asserts" below means that the program stops there.
* `u32`/`u64` arithmetic is modelled with `BitVec` or explicit `% 2^n` whenever wrap-around matters,
  and with `Nat` where the code's own size limits make wrap-around impossible; the comment at the
  definition says which. `char` is signed, `int` has 32 bits and `long` 64 (Linux x86-64); little-endian memory.
* Memory: objects live in mathematical lists or maps from addresses; allocation never fails; pointer validity
  and aliasing are outside the model except where stated (arrays, pools, trace log pages and saved objects
  are modelled with explicit storage).
* Recursion and loops without an obvious bound take a `fuel` argument; theorems either quantify over all
  sufficiently large fuel, or show for which inputs no fuel suffices (the program hangs).
* Concurrency (`Conc`): sequentially consistent interleaving of the individual atomic operations; the
  memory-order arguments of the C++ atomics are not modelled, so nothing is claimed about weaker memory.
* The operating system (`Fs`, C27, C43, C44): a tree of directories and files with POSIX results for `stat`,
  `mkdir`, `open`, `opendir`, `rename`, and scripts of arbitrary short or failed `read` and `write`.
  No other process touches the disk.

## How a false property is treated

Many natural properties turn out not to hold of the code at this commit. For those we prove the negation on a
concrete witness (or for a whole class of inputs) *and* the strongest guarded statement we found
(`…_partial`), and list the disagreement in the section "Disagreements" below.

## What is modelled, area by area

| area | code | not modelled |
|------|------|--------------|
| Bits (C29, C30) | platform/ply-platform/Util.h: power-of-two, alignment, bit counting and avalanche helpers | – |
| Num (C08, C09, C68) | rt/io/impl/FormatString.cpp for integers, TypeParser.cpp | printing floating point; `double` arithmetic is rational arithmetic with an arbitrary rounding function |
| Enc (C01–C03, C49, C59) | rt/string/TextEncoding.h/.cpp: all encoders and decoders, stepping back; string reversal | – |
| TConv (C04) | rt/io/text/TextConverter.cpp with the in and out pipes | other pipe wrappers |
| Str (C15, C16, C50) | rt/string/StringView.h, String.h | reference counting of strings |
| Esc (C10–C14, C45, C48, C51) | escaping printers and readers, chunked pipe, command-line quoting, format strings, scanners | format strings with floating point arguments |
| Stream (C05, C25–C27, C52) | rt/io InStream, OutStream, BlockList, file descriptor pipes, NewLineFilter | reference counting of blocks |
| Label (C06, C07) | rt/string/Label.h/.cpp, details/LabelEncoder.h | the hash table inside (C20) is its list of entries |
| Sort, Arr, Pool (C17–C19, C53) | rt/algorithm/Sort.h, Find.h, rt/container Array, BaseArray, ArrayView, Pool | moves of element types are plain copies of values |
| HMap (C20) | rt/container HashMap.h/.cpp cell by cell | insertMulti, findNext, eraseAndAdvance |
| BTree (C21) | rt/container/BTree.h | nodes are values with a chain of parents instead of heap cells; WeakRef packing; onItemMoved |
| Path (C22–C24, C54) | rt/filesystem/Path.h/.cpp | – |
| Spooky (C28) | rt/container/Hash128.h/.cpp (SpookyHash) buffering | the mixing functions are arbitrary functions of the proper types |
| Date (C31) | rt/time DateTime conversion | time zones of the operating system |
| FLoc (C32) | rt/io/text/FileLocationMap | – |
| Liquid (C33) | rt/io/text/LiquidTags.cpp | – |
| Pylon (C34, C35) | pylon Parse, Write, Node object index | file locations in tokens |
| Cook (C36) | cook/ply-cook/CookJob.h/.cpp | arguments of jobs, results' data |
| Conc (C37–C40, C55, C56) | rt/thread SpinLock, Mutex_LazyInit, ManualResetEvent, Trace_MemLog, RaceDetector, Trace_Counters | destructors, weak memory |
| Schema (C41) | reflect PersistWriteSchema, PersistReadSchema | file streams (byte lists) |
| Persist (C57, C58) | reflect Asset, TypeKey.cpp, PersistWriteObject, PersistReadObject | TypedArray, AnySavedObject, StaticPtr; conversion from and to floating point is an arbitrary function |
| Markdown (C60, C61, C62) | web/markdown ParseMarkdown.cpp, ConvertToHTML.cpp, Markdown.h | `dump`, parent pointers of inline nodes, extension options |
| PyRef (C69) | pylon/reflect Export.cpp, Import.cpp | AnySavedObject, TypedArray, export filters, lifetimes of borrowed strings |
| Ref (C70) | container/Reference.h, WeakRef.h (DualRefCounted), reflect/TypeDescriptorOwner.h (the two callbacks) | the memory order Relaxed (steps of threads are interleaved); class WeakRef itself; destructors with effects beyond the members |
| TFmt (C71) | io/text/TextFormat.cpp, FileSystem::loadTextAutodetect | the streams between the converters (lists of bytes; C04, C05, C06 are about them), rounding of the scores (a parameter) |
| Cpp (C72) | cpp/ply-cpp/Preprocessor.cpp (all of readToken and what it calls), Token.cpp, the set-up in ParseAPI.cpp, PPVisitedFiles.h | the parser above it; includeCallback (it gets the directive and does nothing here); the location map is the list of insertions instead of a BTree (C21 is about the tree: runs of many equal positions, e.g. of empty macros, are not kept in order there); 64-bit locations do not overflow |
| Seq (C73) | rt/container/Sequence.h, Sequence.cpp (all but copying and moving), BlockList.h/.cpp as far as sequences use it | startOffset (streams only); references to blocks from outside (a block is referenced once); alignment; construction and destruction are the lists of items; one sequence at a time |
| CppParse (C74, C75) | cpp/Grammar.h, Grammar.cpp:12-21,80-133, Parser.h/.cpp, ParseMisc.cpp, RestorePoint.h, ParseDeclarations.h/.cpp, ParseExpressions.cpp, ParseQualifiedID.cpp, ParseParameterList.cpp, ParseSpecifiersAndDeclarators.cpp: every function | the supervisor (what it is given is put into the tree directly; comments passed to it are recorded); parsing of Plywood's own annotations; the text of error messages; nested calls and passes through loops are limited to a depth, which C74_limit shows to make no difference; the tokens come from the model of C72, without macros, or from a list |
| Image (C76) | image/Image.h, Image.cpp: every function; math/Box.h:97-103,152-158 as used there | the value of powf in linearToSRGB (any function of the byte); the heap returns any free address; undefined behaviour (access outside memory, overflow of s32, conversion of a negative float to u32) is an outcome of its own |
| Geom (C77) | math/AxisVector.h, AxisVector.cpp: every function; math/Box.h: contains, intersect, union, expand, makeSolid, empty, full, isEmpty for IntRect; math/IntVector.h: min, max | rounding (coordinates are elements of any commutative ring); mix, unmix, clamp and rounding of boxes; boxes of floats |
| Xform (C78) | math/Quaternion.h/.cpp, Matrix.h/.cpp, QuatPos.h/.cpp, Complex.h (fromAngle, mul), Extra.h (except clampLength, which no vector type can instantiate), Interpolate.h (the cubic functions), Core.h (mix, unmix), Vector.h/.cpp as used there | rounding, overflow and NaN: numbers are real numbers and sqrtf, sinf, cosf, tanf the exact functions; swizzles; the splines of Interpolate.h |
| Rand (C79) | rt/algorithm/Random.h, Random.cpp; avalanche from Bits | where time, timer and thread number come from (any words); the summand of the thread number is any word |
| Proc (C80) | rt/process/Subprocess.h, impl/Subprocess_POSIX.cpp (exec, join, destructor, null device), io/impl/Pipe_FD.cpp (close) | the kernel is a model of POSIX (descriptor tables, dup, pipe, fork, exec); fork and execvp succeed; signals, mutexes, the Windows version and passing descriptors over sockets |
| Audio (C81) | audio-primitives Render.cpp, Saturate.h (both versions), Buffer.h, Format.h | memory in cells of two bytes; NaN sample rates; source and destination of mixPitchedDirect do not overlap; OfflineClip |
| Inst (C82) | ProjectInstantiator.cpp (all but the tree for printing), addDependency and instantiatorError in ModuleArgs.cpp, the loop over the roots in BuildFolder.cpp; joined to Build | the functions of modules and externs are lists of calls; names already resolved; source files reduced to whether there are any |
| Names (C83) | DependencySource.cpp, Repo.cpp, name resolution in RepoRegistry.cpp, getFullyQualifiedName in ExternProvider.cpp, addTarget and addExtern in ModuleArgs.cpp up to the dependency found | pointers are positions; messages reduced to their kind; loading of repos from disk not modelled; reading of identifiers is that of Esc |
| Docs (C84) | DocServer.cpp: dumpContents, populateContentsMap, getPageSource up to the file read, the choice of entries in serve, serveContentOnly | entries are told by the way to them; the hash table is a list; the frame of the page is constant text and left out; reading contents.pylon, its modification time and threads not modelled |
| Own (C85) | Owned.h: class Owned; Subst.h: destroyByMember; Functor.h but for the call | addresses are never reused, so that a stale access is always seen; an object is its owning members; destructors do nothing but destroy these, last first; variables always exist, and their end is clear; the destructor of a callable is not modelled; Borrowed, OptionallyOwned and Reference not modelled |
| Rm (C86) | FileSystem_POSIX.cpp: removeDirTree, deleteFile, and the listing as they use it | a disk with symbolic links (40 at most are followed), without permissions, hard links, mount points, other kinds of files and other processes; the names of a directory are read when it is opened; `stat`, `opendir`, `readdir`, `unlink`, `rmdir` are environment; fuel bounds the depth |
| Clean (C87) | Command_Cleanup.cpp: checkFileHeader, the header of command_cleanup; expandFileLocation as used there | on the tokenizer of Cpp (C72) and the location map of FLoc (C32), both as modelled there; reading and writing the file are C39, C43 and C45; the null text of the end-of-file token is undefined behaviour |
| Cmd (C88) | plytool: main, CommandLine, prefixMatch, ensureTerminated, extractOptions, and the reading of the command line in every command | up to the point where the command line is finalized; whether there is a current build folder is a parameter; the text of messages and what the commands do is not modelled |
| Conv (C89) | TypeConverter.cpp: makeConversionRecipe, createConversionRecipe, convert, applyConversionRecipe | recipes as lists of commands that fit into one block; memory as a function from addresses to bytes; limits of u16 and wrap-around of u32 offsets as in the code; alignment is not modelled |
| Title (C90) | SymbolTitle.cpp: parseTitle, writeAltMemberTitle | errors without their places; the function that finds a link is any function; escaping as in Esc |
| Cpu (C91) | Affinity_Linux.cpp, Affinity_Linux.h | the text of /proc/cpuinfo is given; getline, find_first_of, find_last_not_of, sscanf and CPU_SET by their documented meaning; what the kernel does with the set is not modelled |
| DocEx (C92) | CookResult_ExtractAPI.cpp: parseDocString, onGotDeclaration, exit; CookResult_Page.cpp: dumpExtractedMembers | one class without nested classes; comments as lines that are text or a directive, indentation as part of the text; what parsing of C++ delivers is given; the HTML of an entry is not modelled |
| DocLink (C93) | SemaEntity.cpp: lookup, lookupChain, appendToQualifiedID; CookResult_Page.cpp: getLinkDestination, getLinkDestinationFromSpan, resolveClassScope, shouldShowLink | entities by address, every address valid; the trees of names are the sorted lists they show (C21); names of fewer than 2^31 bytes |
| DocText (C94) | CookResult_Page.cpp: visitAll, parseMarkdown (without the parsing) | nodes as trees; pointers to the parent only where they matter (children of a deleted link); kinds of nodes other than text, code, links and headings are numbers; the index of IDs is the sorted list it shows (C21) |
| Toc (C95) | CookResult_ExtractPageMeta.{h,cpp}: childOrder, getLinkDestination; WebCooker/Main.cpp: visitPageMetas, convertContents | pages as trees with their link IDs and tags given; pages below visited before they are put in order (proved the same: visit_eq, convert_eq); directory, sorting, titles and other tags not modelled |
| Gen (C96) | ReflectionHooks.cpp: insertDirectiveSubst, onGotInclude, end of exit; Command_CodeGen.cpp: performSubsts | the calls of the parser as a list of events; the file as parts (text, generated lines, other includes, braces); contents of the generated files and reflection of classes and enums not modelled |
| Reg (C97) | ExtractModuleFunctions.cpp: gotMacroOrComment, onGotDeclaration, extractInstantiatorFunctions | the calls of the parser as a list of events; positions and texts of messages not modelled |
| Sig (C98) | Int128.h: u128; RepoRegistry.cpp: parseSignatureString, signatureToString; BuildInstantiatorDLLs.cpp: buildInstantiatorDLLs (signature and decision); BuildFolder.cpp: bytes of currentBuildSystemSignature | the hash is any function; CMake either works or not; generated sources and targets not modelled |
| Crowbar (C63, C64, C65, C66, C67) | crowbar Tokenizer.cpp, Parser.cpp, ParseUnexpected.cpp, ParseTree.h, Interpreter.cpp; ObjectStack, the operators of u32, bool and String; the host of apps/CrowbarTest | hooks and structs of the host, traits, custom blocks, positions of run-time errors, stacks of objects of more than one block |
| Build (C42) | build/…/Dependency.h/.cpp, BuildTarget.cpp: inheritance of options | source files, precompiled headers |
| Fs (C43, C44) | rt/filesystem FileSystem, POSIX layer, walk | permissions, symbolic links but for dangling ones, times |
| Web (C46, C47) | web/…/Server.cpp, FetchFromFileSystem.cpp, SourceCode.cpp, rt/filesystem/impl/FileSystem_Virtual.cpp | sockets; contents of responses; `readString` is taken to return what it consumed (see C52) |

## Plan per property

| id | model | proof |
|----|-------|-------|
| C01 | UTF-8 encoder/decoder on byte lists | arithmetic case split on the four length classes, suffix arbitrary |
| C02 | same decoder | case analysis over lead bytes; structural progress/in-bounds lemma; resumption lemma for truncated prefixes |
| C03 | UTF-16 LE/BE encoder/decoder | case split BMP/supplementary |
| C04 | `TextConverter::convert` state machine (small buffers, flush flag) | simulation with whole-string decode/encode, invariant on the small buffers; counterexample for the pipe wrapper |
| C05 | newline filter state machine with bounded output | simulation with whole-string map, induction over calls |
| C06 | varint coder on 32-bit values | induction on number of 7-bit groups |
| C07 | label map: big string storage + hash index | invariant by induction over operations |
| C08 | integer printer into 64-byte buffer, parser | strong induction on value; digits lemma |
| C09 | parser with sticky overflow test | invariant "accumulator = value or overflow flagged" |
| C10 | escaping printer, quoted-string reader | induction on the string, per-byte lemma |
| C11 | XML escaper | induction |
| C12 | URL escaper | induction |
| C13 | chunked pipe, reference decoder | induction over writes |
| C14 | argument quoting, reference CRT parser | induction with backslash run counter; counterexamples |
| C15 | byte comparison | order laws by induction |
| C16 | split, join, trim | induction |
| C17 | quicksort over an array with explicit indices | partition invariant, well-founded recursion, out-of-range = distinct outcome |
| C18 | array moves element by element | list refinement; counterexample for overlapping eraseQuick |
| C19 | pool with embedded free list | invariant + refinement to finite map |
| C20 | leapfrog hash table cell by cell | invariant + refinement; counterexamples for non-termination and delta 255 |
| C21 | B-tree as functional tree with a zipper | ordered-tree invariant + refinement to sorted list |
| C22–C24, C54 | path functions on byte lists | list induction; counterexamples for leading `..` |
| C25 | input stream with block buffer and scripted pipe | invariant `delivered ++ buffered ++ undelivered = content` |
| C26 | output stream with block buffer and failing pipe | invariant `sent ++ buffered = written` |
| C27 | read/write loops against an arbitrary OS script | induction over the script |
| C28 | Spooky state machine with abstract mixing functions | invariant relating buffered state with one-shot fold |
| C29, C30 | bit tricks on `BitVec` | bit-level lemmas and modular inverses |
| C31 | calendar arithmetic on `Int` | arithmetic over the 400-year cycle; independent calendar spec |
| C32 | location table | invariant on table entries; counterexample for straddling characters |
| C33 | tag extractor state machine | induction; counterexamples |
| C34, C35 | document writer and recursive descent parser; object index | mutual induction on trees; counterexamples |
| C36 | cook context with interactive cook functions | invariant over worklist |
| C37–C40, C55, C56 | interleaving transition systems | inductive invariants over reachable states, any number of threads |
| C41 | schema writer/reader on byte lists | induction on the writer's recursion |
| C42 | propagation on DAGs | induction on topological height |
| C43 | walk stack machine | induction on trees |
| C44 | save operation as a sequence of file system steps | step-by-step semantics; counterexample for crash |
| C45 | format interpreter | induction |
| C46 | request path joining | counterexample for `..`, guarded theorem |
| C47 | head parser | refinement |
| C48 | terminator scanner | counterexample; guarded theorem |
| C49 | stepping back over the last character | mask lemmas over all bytes; case split |
| C50 | searching and slicing of views | list induction; counterexamples for 32-bit wrap |
| C51 | identifier and whitespace scanners | induction |
| C52 | text between two block list positions | case analysis; counterexample |
| C53 | find, rfind, view equality | list induction |
| C57 | object writer and reader on byte lists with link tables | each object writes a list of pieces (bytes, links, owned objects); induction on the typing derivation |
| C58 | the same reader with another type | the same induction, relating file, old object and result (`Becomes`) |
| C59 | single-byte encoder/decoder | case split |
| C60 | the HTML writer over document trees | induction over the tree against a grammar of HTML fragments (`Reads`), escaping by C11 |
| C61 | the inline parser on symbols (characters and line breaks) | every loop keeps the text its delimiters stand for (`SrcD`), by functional induction; totality by the same; unambiguous text by induction over its derivation |
| C62 | the block parser, line by line, on the tree of nodes | an invariant over lines relates the lines read to the texts of all nodes in the order they were made; nodes are made in the order of a walk unless a list is in a list; counting shows the walk visits each once; flat documents and documents with lists by induction over their grammar |
| C63 | the tokenizer over byte lists | induction over the text for gaps and tokens; a separate shape for every kind of token |
| C64 | the recursive parser with an allowance of nested calls | induction over the tree with a printer that knows only the table of C; more allowance never changes a result |
| C65 | the same, with mute flag, accept flags and the errors reported | round trip by induction over statements; a logic for "no error yet" over all parsing functions; the hang by induction over the allowance; elsewhere the rest of the source, with the nesting, is a measure of the allowance needed |
| C66 | the store as bytes and table, with the label map | simulation of a tokenizer with one token put back; the layout of the store is an invariant built up token by token |
| C67 | the interpreter with a stack of numbered objects and pointers that can dangle; a separate interpreter on values | simulation by induction over nesting, with an invariant of frames (which objects a function owns, which parameters can be aliases); careful programs by a second induction |
| C68 | the parser of `double` over rationals, every operation rounded by a parameter | induction over digits with the invariant value + significance · numerator / denominator; a finite table of powers for the radixes |
| C69 | export and import over the types of C41 and the trees of C34, with undefined conversions and failed assertions as `none` | induction over contents that can be saved; induction over depth for well-typedness |
| C70 | heap of objects with counters and members, variables, raw pointers from release(); a deleted object that is touched, and a failed assertion, are errors; threads as interleaved atomic steps | invariant counter = number of references over operations; destruction as a work list with a potential function; reachability by induction |
| C71 | scan, scores and choice of the format over whole files; importer and exporter as composition of conversion and line ends | points of a text as common meaning of the encodings; induction over the scan with the counts of the text as invariant |
| C72 | tokenizer as total functions on what is left of the source; stack of views, location map and errors as state | invariant that each location map entry describes the text behind it up to the next; induction over the tokens; written tokens as separate grammar for the round trip; rank of macros and bytes left as measure for the end |
| C73 | heap of blocks with both links and file offsets; cursors are a block and an index | linked segment of the heap represents a list of blocks (invariant over operations); refinement to operations on a list; list of addresses of the items for stability |
| C74 | parser functions as bodies with a parameter for the calls they make, closed by a limit on depth; state = queue of tokens, restore point, flags, errors | invariant between calls ("goes forward", with rules for read, push back, restore points), proved for every body and by induction on depth; monotonicity in the limit by a relation kept by every body; hanging by an invariant state of a loop, transported to whole texts by a second such relation; assertions by evaluation, extended to all limits |
| C75 | a grammar of declarations as inductive predicates that relate trees and tokens, without reference to the parser | a calculus of "eats exactly these tokens and returns this tree" for functions of the parser, one rule for each production, induction on the derivation; unambiguity follows because the parser is a function; texts by a simulation between two sources of tokens, proved for every function of the parser, and the round trip of C72 |
| C76 | where a byte of a pixel lies, "exactly these pixels have changed to this", the value of 32-bit and 16-bit floats as integers | an invariant over the rows and columns already drawn, one lemma for all operations; the conversion of floats by cases on exponent and arithmetic with powers of two |
| C77 | unit vectors, scalar and vector product, determinant, the linear map of three columns, sets of points | finite case analysis for the codes (all of them), linear algebra for all vectors |
| C78 | the formula of Rodrigues, maps preserving scalar and vector products, Mathlib's matrices, fractions of an interval, HasDerivAt | algebraic identities checked by linear_combination; a rotation matrix is converted back through the ten products of quaternion coordinates |
| C79 | calls counted from a generator made by a constructor; how many moments of a period have a property | the step is linear over bits; its characteristic polynomial is checked on a basis, powers are computed by the kernel modulo it, and for each prime factor of 2^128-1 an inverse of the power minus one is exhibited, so no smaller power fixes a state; then counting |
| C80 | tables of descriptors of the parent and every program, a history of starts, closings and ends | each stage of exec extends the table; induction over histories that an end stays with its only holder |
| C81 | samples as 16-bit words with their signed value; memory before and after | every loop is one general loop over cells, characterised by induction; positions in 1/65536 of a sample for the pitch |
| C82 | entries in order of instantiation, functions as lists of calls, fuel for the recursion | one invariant (settled entries have what they asked for, a rank decreases along dependencies), kept by induction on the recursion; success by induction on the same, the converse from the invariant; composed with C42_exact |
| C83 | registry as a list of repos with names of modules, externs, providers; visit with fuel | splitting and joining are inverse; the searches for the only match reduce to lists of matches; the visit yields exactly the repos reachable, by induction on the number not yet visited |
| C84 | tree of entries; HTML grammar of C60; paths of C22 | the list of entries to expand is the ways between the entry and the chosen one, by induction; every written entry reads as its node; the path is plain after the first join, so that appending and joining again are computed name by name |
| C85 | heap of objects with owning members; fuel for depth; a use after free or second destruction is `none` | unique owners make what is reached from siblings disjoint; destruction by induction over depth with the stack of objects under destruction; absence of cycles kept by moves; following owners upward ends at a variable |
| C86 | disk as a list of places and what is there; path resolution with links; the loop with the disk changing under it | everything done keeps the disk a tree and changes it only below the place given (induction on depth and entries); the paths made by joining lead to the entries (C22, C43); an empty directory has nothing below, so that what is left after rmdir is the disk without the place |
| C87 | the loop over tokens, the cut and the trimming as in the code | what is read depends on the place only in locations and errors (simulation of two states, induction on passes and tokens); white space and complete comments are passed over, byte by byte; lines are split by induction; locations by C32 |
| C88 | words are read one by one, options put aside and taken out by each command, as in the code | what is left of the command line is represented by its words and options (simulation); then each branch, both ways; options by permutation |
| C89 | recipe and interpreter as in the code | running the recipe equals copying a list of pairs of places (induction on types); which pairs these are by paths of indices; copies that do not overlap have the stated effect |
| C90 | reader of titles and writer of their HTML as in the code | a grammar of titles; both directions by induction on the text; HTML read back by a small relation, with C11 for the escapes |
| C91 | reader of the text and collector as in the code | a grammar of descriptions; the collector refines grouping by a key (invariant over the lines); grouping is a permutation |
| C92 | state machine of comments and declarations, and the loops that write the page, as in the code | what is meant as a list of items; the state is idle between items (induction); the loops are filters, and the filters are a partition |
| C93 | looking up names and finding pages, as in the code | scopes as relations (visible, path); the first item not less than a name in a sorted list; induction over the nesting of scopes, over names and over the scopes tried |
| C94 | the walk over the tree with its changes, as in the code | the pieces of text shown and meant as lists; induction over trees and lists of trees at once |
| C95 | reading of names, taking of pages from the list, the walks over the tree | names in a text as a relation; permutations for what is kept and lost; induction over trees |
| C96 | walks back in the source, the changes and their application by offsets, with assertions | files as parts with what should become of each; induction over the parts with what has been copied so far |
| C97 | reading of commands and the state kept between comments and declarations | commands as a grammar with white space, files as pieces; induction over pieces, and a count kept over all events |
| C98 | 128-bit addition, texts of signatures, the decision to build | values as natural numbers modulo 2^128; numerals of C08 and C09; sums for the order |

## Disagreements

What the code at this commit does otherwise than its interface promises; each is a theorem (name in
parentheses; all theorem names are in `MANIFEST.json`).

* **Stray UTF-8 continuation bytes** are reported as truncated instead of invalid (C02_stray_reports_truncated); the text
  converter then asserts when three more bytes are there (C04_stray_assert).
* **Text converter**: an output pipe fed pieces shorter than three bytes loses bytes (C04_pipe_loses); an odd
  number of UTF-16 bytes asserts when read (C04_read_odd) or loses its last byte, depending on how the stream delivers
  it (C04_read_sound and the example beside it).
* **Numbers**: printing and parsing -2⁶³ negates `INT64_MIN` (C08_print_signed_min_is_ub,
  C09_parse_signed_min_is_ub). The overflow of the denominator of a fraction is noticed only in 15 of 36 radixes
  (C68_radixes); `.5` is refused although read (C68_leading_point).
* **Pylon export/import**: numbers, fixed arrays and enum arrays can be imported but not exported (assertion), a null
  `Owned` pointer and an enum value without name are followed as null pointers; import silently keeps a string for which
  the text has a list, takes every text but `true` for false, accepts `12abc` as 12 (C69_* theorems).
- C70: move assignment gives up the old object before it takes the new one, so `head = std::move(head->next)` reads a destroyed object
  (C70_pop_undefined); `clear()` writes into a destroyed object when it is applied to a member of a circle (C70_circle); the 65535th
  reference passes the assertion when it is made and fails it when it is given up (C70_limit); giving up the last strong and the last
  weak reference of a `DualRefCounted` object in two threads can delete it before its contents are given up (C70_dual_race).
* **Text formats**: the exporter for Bytes does not convert (C71_bytes_not_converted, C71_bytes_mark); the importer drops
  U+FEFF at the start of a text saved without mark (C71_mark_lost); only the first 4000 bytes decide about line ends
  (C71_late_newline); a byte that is no first byte of a character ends the UTF-8 scan and the file counts as valid
  (C71_stray_hides, C71_detect_blind); a short ASCII text with an escape character is taken for UTF-16 (C71_escape_misread).
* **C++ tokenizer**: a macro that names itself is expanded for ever (C72_self_macro_never_ends); `/***/` does not end a
  comment (C72_comment_stars); unfinished raw strings make an assertion fail, `R"())"` is not closed (C72_raw_unfinished,
  C72_raw_missed); `0-5` is one number, `1'000` starts a character literal (C72_zero_minus, C72_number_cut); a `#` alone on a
  line, or a comment before it, makes the next directive an error (C72_directive_lost); the location of a macro token is
  that of its expansion, and that of the end of the file may be -1 (C72_macro_misplaced, C72_end_location).
* **Sequences**: items larger than a block make a sequence say it is empty and range-for fail (C73_large_items); truncate
  drops items without destructing them (C73_truncate_leaks); `normalized()` fails for the end of a full block that is not
  the last, which ObjectStack::deleteRange may meet (C73_normalized_fails); a view begun and not ended leaves an empty last
  block, for which tail() and popTail fail (C73_empty_tail); numItems wraps at 4 GB (C73_count_wraps).
* **C++ parser**: it never ends for `struct A { A(::B b); };` and `X<(1+2)> y;` (C74_texts_hang; cause: `anyTokensConsumed`
  is inverted and looks at the start of the queue, C74_tried_params_hang); it fails assertions for `int x = a > b;`,
  `int x = +1;`, `X<(N)> y;` and others (C74_texts_assert); `operator` followed by something else inside something that is
  only tried mutes all errors (C74_operator_silent); correct declarations are refused (C74_texts_refused); comments are
  passed on twice (C74_comment_twice); pointers to functions and arrays come out as functions and arrays
  (C74_function_pointer); `typedef` leaves no trace (C74_typedef_lost); the comma behind a base class is the wrong token
  (C74_base_comma).
* **Images**: flipping an image onto itself loses rows (C76_flip_in_place_wrong); clear does nothing if rows are stored
  from the bottom (C76_clear_bottom_up_does_nothing); copy and flip fail an assertion for images without columns
  (C76_copy_empty_asserts); conversion to 16-bit floats turns large numbers into small ones, infinity into 1, and
  representable small numbers into zero (C76_half_wrong); linearToSRGB is undefined for bytes from 128 on where char is
  signed (C76_srgb_undefined); toABGR puts two bytes into the same place (C76_colour_reversed_wrong).
* **Axes and boxes**: `negate` of a plane direction is the inverse turn (C77_plane_negate_wrong);
  AxisRotPos::toFloat4x4 drops the position (C77_pos_matrix_wrong); Box::full is empty, and a union with a point need
  not contain the point (C77_box_wrong).
* **Audio**: mixDynLevel multiplies unsigned and cuts to 16 bits, so above full volume loud samples wrap around instead
  of being limited (C81_dyn_wraps); mixLeveled is undefined at some sample above full volume (C81_leveled_range); sizes
  wrap at 2^32 bytes (C81_size_wraps); mixPitchedDirect runs backwards at steps from 2^31 on and does not normalise the
  first fraction (C81_pitched_wrong).
* **Instantiation**: an extern that is being instantiated looks like one that is not available, so a loop entered there is
  silently cut (C82_extern_loop); sharedContainer is never reset, so root targets after a shared one go into its library
  (C82_shared_leaks), and in the other order propagation fails an assertion (C82_shared_late); makeShared is ignored for a
  root target that another one asked for before (C82_shared_ignored).
* **Names**: getShortDepSourceName looks for the names of modules among the externs (C83_module_short_ambiguous); the fully
  qualified name of a provider leaves out the repo of the provider if it is that of the extern, but a missing repo means
  any repo when the name is read (C83_provider_full_ambiguous); getExternProvider goes on after reporting that a component
  is missing (C83_provider_asserts); findExternInternal prints the second byte of a name instead of the name
  (C83_extern_asserts); findOrCreateExtern takes an ambiguous name for a new one (C83_extern_twice).
* **Signatures**: errors in module definition files do not keep their signature from being saved, so that they are reported once only
  (C98_errors_once); names of targets are hashed with nothing between (C98_folder).
* **Commands in module definition files**: a command that no declaration follows is dropped without a report (C97_lost_at_end).
* **Generated lines**: performSubsts asserts that each change ends before the end of the file, which fails if a generated line is the
  last one (C96_fails).
* **Table of contents**: pages that a childOrder tag does not name are reported, but also not made (C95_lost); a comma or a hyphen in
  the tag ends the list, so that pages such as `a-b` are always lost (C95_unnamable); `a.md` and `a/index.md` get the same address (C95_address).
* **Links in descriptions**: in a heading such as ``# [`S`](#s)`` the code is moved out of the link, which is deleted, but keeps it as its
  parent; if there is a page for `S`, the deleted node is read (C94_heading_code, C94_fails). A link to the place `a::b` of a page by its ID
  is left as it is (C94_colon).
* **Links in the documentation**: text that begins with a colon fails an assertion (C93_leading_colon); members of base classes are not
  found (C93_bases_ignored); the full name of a class leads to a function of the same name (C93_same_name).
* **Documentation of classes**: the list of each category is left open in the page (C92_list_left_open); a documented declaration of
  two members, text inside of a group, and an empty comment after one with text fail assertions (C92_two_members_assert,
  C92_comments_assert).
* **Cores of the machine**: a processor without package and core is put on the core of package 0 that has its number, even if that
  is another one (C91_mixed); a large number in any line, such as a serial number, is undefined behaviour (C91_overflow).
* **Titles of members**: a backslash at the very end of a title is left out without an error (C90_backslash_silent).
* **Converting structs**: for an array of variable size the commands for its items are looked for in the next block, where there are
  none, and then carried out once for the struct itself, and the conversion ends there (C89_array_wrong).
* **The command line of plytool**: an empty argument is taken for the end of the command line, and words and options after it are
  ignored (C88_empty_ignores); `rpc` ignores its arguments and leaves the command line unfinalized, so that the assertion in its
  destructor fails (C88_rpc); `extern in` silently means `info` (C88_ambiguous).
* **Cleaning up source files**: the old header is cut at the first blank line or at the start of the line of the first token,
  even inside of a comment (C87_comment_cut, C87_line_shared), and errors of the tokenizer are not looked at (C87_garbage_lost);
  for a file without code a null pointer is used (C87_no_code).
* **Removing directories**: a link that leads nowhere when its turn comes is passed over, so that the directory is not
  empty and rmdir fails (C86_dangling, C86_order); removing a link to a directory empties that directory (C86_top_link); the
  joined path of an entry loses one of two leading `..` (as in C22), so that the wrong files are removed (C86_two_up).
  Where the file system does not give the kind of an entry (DT_UNKNOWN), directories are taken for files (not modelled).
* **Owning pointers**: `operator=(Owned&&)` destroys the old object before it reads the source, so that `p = std::move(p->next)`
  is a use after free (C85_move_next), and `a->next = std::move(a)` leaks (C85_cycle_leaks). `Functor::operator=` does not delete
  what the functor held (C85_functor_leaks), and `~Functor` deletes a `BaseWrapper*` whose destructor is not virtual: undefined,
  and in practice what the callable holds is not destructed (not modelled).
* **Documentation server**: link destinations (and page titles) are written without escaping (C84_link_breaks); requests
  are not confined to the folder of pages (C84_escape, C84_windows_drive); getPageSource joins the root folder twice, which
  fails for a relative one (C84_relative_root); the port of the environment variable PORT is parsed and not used
  (WebServer.cpp:99-104); the modification time is recorded even if reloading failed, and the table is read without the
  mutex (not modelled).
* **Child processes**: the ends of pipes meant for the child are not marked close-on-exec, so a program that another
  thread starts at the wrong moment keeps them open and reading the output does not end (C80_race); a parent without
  descriptor 0 gives its programs none, since dup2(0, 0) is followed by close(0) (C80_closed_input); a failed chdir is
  ignored and the program runs in the wrong folder (C80_folder); only the low byte of the exit code is returned, so 256
  is success (C80_code_256); execArgStr is declared but not defined on POSIX; a program that is destroyed while running
  is never waited for (C80_destroy).
* **Random numbers**: nextFloat can return exactly 1 (2^103 times in a period, C79_fraction_reaches_one), since
  4294967295.f is 2^32 and large numbers are rounded up; two successive numbers reveal the state (C79_predictable).
* **Transformations**: makeProjection divides a vertical term by the width (C78_projection_wrong);
  ScalePos2::makeTranslation has the scale 0 (C78_scalepos_wrong); QuatPos(Quaternion) leaves the position
  uninitialised (C78_quatpos_wrong); derivativeCubic lacks the factor 3 (C78_cubic_derivative_wrong); fromUnitVectors
  treats vectors within 1e-6 of opposite as opposite (C78_unit_vectors_wrong); lookAt straight up or down divides by
  zero (C78_look_at_wrong). Seen, not modelled: `Quaternion::fromOrtho(Float3x4)` is declared but never defined.
* **Escapes**: the printer writes control characters as `\01`, which the reader rejects
  (C10_control_characters); `""` is only recognised once another byte follows (C10_empty_string); overlong
  encodings of `<` are not restored (C11_overlong_not_restored).
* **HTTP chunks**: an empty write asserts (C13_empty_write_asserts); the chunk terminator is also written when
  chunking is off (C13_terminator_in_plain_mode).
* **Windows command lines**: a quoted argument ending in a backslash, and the empty argument, are lost
  (C14_trailing_backslash_lost, C14_empty_argument_vanishes).
* **String comparison** casts a length difference to `s32` (C15_huge_strings_misordered).
* **Sorting** with a reflexive comparison does not end (C17_reflexive_comparison_diverges).
* **Arrays**: `eraseQuick` of a range overlapping the last items corrupts (C18_quick_overlap_corrupts);
  self-assignment reads unconstructed memory (C18_self_assignment_faults).
* **Hash map**: with an identity hash, putting keys 0…128 and then 512 never returns (C20_may_hang); an erase
  may leave a link of 255, which marks a used cell as empty (C20_erase_loses).
* **B-tree**: equal keys are not first-in-first-out in larger trees (C21_not_a_queue).
* **Paths**: `upCount` is never incremented, so `../..` becomes `.` (C22_two_up); `/..` becomes `.`
  (C22_root_lost); `C:a` becomes `C:\a` (C22_drive_relative); `.\C:x` becomes `C:x` (C22_drive_name); `./` is
  not a fixed point (C22_not_idempotent); relative paths do not always lead back (C23_counterexample); a
  backslash in a POSIX name becomes a separator (C54_backslash).
* **Streams**: requests of more than one contiguous byte lose data at block ends
  (C25_wide_request_loses_data); a flush after a failed request asserts
  (C26_flush_after_failed_request_asserts); writes of 2 GiB overrun (C26_huge_write_overruns); capturing
  text with an explicit end crashes (C52_capture_crashes), and with it `readString`.
* **Dates**: every instant before 1970 asserts (C31_before_epoch); the weekday is that of the next day
  (C31_weekday_wrong).
* **File locations**: a character across a 256-byte boundary gives a wrong column (C32_counterexample); an
  offset inside a character asserts (C32_inside_character); the end of a text of whole chunks is outside the
  table (C32_end_of_chunk).
* **Liquid tags**: a `%` in a tag duplicates the next byte (C33_percent_counterexample); `<<%x%>` is not seen
  (C33_less_counterexample).
* **Pylon**: control characters and byte FF do not survive (C34_control_characters, C34_byte_ff); an unquoted
  word at the end loops for ever (C34_word_at_end_hangs); copying an object asserts (C35_copy_asserts).
* **Cooking**: `isCooked` on an unseen job makes cooking it assert (C36_isCooked_spoils); a vanished file
  dependency asserts (C36_vanished_dependency).
* **Trace log**: a thread held up during four page changes touches a deleted page (C40_deleted_page).
* **Schemas**: recursive types come back as null (C41_recursion_lost, C41_list_node); a switch cycle and
  `AnyOwnedObject` crash the reader (C41_switch_crash, C41_any_owned).
* **Build**: dependency cycles recurse for ever (C42_cycle).
* **File system**: walking `../..` visits the wrong directories (C43_two_up); saving truncates the file before
  writing although documented to rename a temporary file (C44_crash_loses); a short write is reported as
  success (C44_short_write); `makeDirs("a/b/")` and a file in the way assert (C44_makeDirs_slash,
  C44_makeDirs_file); `makeDirs("a/../f")` with a file `f` makes `a` and reports that the directory exists
  (C44_makeDirs_exists_false).
* **Web**: `/static/../../x.js` leaves the root (C46_static_escape), `/file/../name` opens the directory above
  the source root (C46_source_escape), a drive letter ignores the root (C46_windows_drive), the virtual file
  system is left with `../a` (C46_virtual_escape).
* **Terminator scan** misses a terminator after a false start (C48_false_start_misses).
* **Views**: 32-bit sums in `subStr` and repetition wrap (C50_subStr_wraps, C50_repeat_overflow); `rfind` on
  an empty view asserts (C53_rfind_empty_asserts); an empty identifier is accepted with flags
  (C51_empty_identifier_accepted).
* **Saved objects**: pointers used in another order than their targets assert when saving
  (C57_pointer_order_asserts); objects that begin with an owned object or are empty are confused when loading
  (C57_nested_owner_asserts, C57_empty_object_confused); states of a switch in another order are read with the
  wrong format (C58_switch_order); raw pointers cannot be passed over (C58_pointer_dropped_asserts); an enum
  read from a number is unchecked (C58_enum_from_number); a 64-bit number as `bool` loses its high half
  (C58_bool_from_u64).
* **Markdown**: a paragraph beginning with `](` asserts (C61_total); emphasis within a word is not recognised
  (C61_intraword); a backslash in a link destination does not protect the next character (C61_link_escape); a
  tight list with an empty item cannot be written (C60_empty_item_asserts); an empty quote, an empty heading,
  text after code in an item, and code after a heading after code assert (C62_total_false, C62_flat_asserts); a
  quote after a paragraph does not take its text (C62_quote_false); the indentation of nested items is compared
  with the wrong origin (C62_nested_false); a marker directly after a marker puts a list into a list, out of order
  (C62_order_false); a list that does not begin with 1 after a code block is read as a paragraph
  (C62_list_after_code_false).
* **Crowbar**: the operand of a prefix operator is parsed with the lowest precedence, so `-a + b` is `-(a + b)`
  (C64_prefix_swallows; the table `UnaryOpPrecedence` is unused); a file that ends in a parameter list is parsed for
  ever (C65_unclosed_parameters_hang); `expandToken` takes the table entry for the byte after the beginning of a token
  instead of the one for the next token, so looking up a token fails an assertion when the next one begins a block
  (C66_expand_exact, C66_expand_false: run-time error messages use it). The interpreter moves or aliases values instead of
  copying them, depending on what is on top of its stack: `a = 1; b = a` is undefined behaviour
  (C67_copy_of_newest_undefined), `t = s` empties the string `s`, and a function that assigns to its parameter changes the
  caller's variable if that is the newest one (C67_parameter_aliases_newest). Also modelled as they are: an unterminated string asserts, brackets `[` `]` and
  colons are invalid tokens, an unclosed comment silently ends the file, `return a b` is accepted as two statements,
  numerals of 2^32 and more become 0, and a backslash in a string means just the next byte (`\n` is `n`). The model was
  evaluated on the sources in AllCrowbarTests.txt of the repository: the expected parse errors agree.

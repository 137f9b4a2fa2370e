{"id": "C01", "title": "UTF-8 encode/decode round trip", "statement": "Encoding any Unicode code point with the UTF-8 encoder and decoding the produced bytes, followed by arbitrary further bytes, yields the same code point with status Valid and consumes exactly the bytes that were produced; the produced bytes are the encoding prescribed by the Unicode standard.", "quantifier": "every code point below 0x110000 and every byte string that follows it", "why_tests_cant": "1.1 million code points times an unbounded set of suffixes; a test samples both.", "anchors": ["repos/plywood/src/runtime/ply-runtime/string/TextEncoding.h: UTF8::encodePoint, UTF8::decodePoint", "repos/plywood/src/runtime/ply-runtime/string/TextEncoding.cpp: decodePointSlowPath"]}
{"id": "C02", "title": "UTF-8 decoder totality and progress on arbitrary bytes", "statement": "On any byte string whatsoever the UTF-8 decoder never reads past the end of the view, consumes at least one and at most as many bytes as are available when the view is not empty (zero when it is), so a decoding loop always terminates; the result is Valid only if the consumed bytes have the lead/continuation structure of a UTF-8 sequence, and a decoder that resumes after a Truncated prefix of a well-formed sequence decodes it once the missing bytes are supplied.", "quantifier": "all byte strings, including malformed, overlong and cut-off ones", "why_tests_cant": "the input space is every finite byte string; malformed inputs are exactly what hand-written tests miss.", "anchors": ["repos/plywood/src/runtime/ply-runtime/string/TextEncoding.cpp: decodePointSlowPath", "repos/plywood/src/runtime/ply-runtime/string/TextEncoding.h: DecodeResult"]}
{"id": "C03", "title": "UTF-16 round trip in both byte orders", "statement": "Encoding any Unicode scalar value as UTF-16 (little or big endian) and decoding the result followed by arbitrary bytes gives back the same code point, status Valid, and consumes exactly the bytes written.", "quantifier": "every non-surrogate code point below 0x110000, both byte orders, every suffix", "why_tests_cant": "a million values times two byte orders times unbounded suffixes.", "anchors": ["repos/plywood/src/runtime/ply-runtime/string/TextEncoding.h: UTF16"]}
{"id": "C04", "title": "Text conversion is independent of buffer boundaries", "statement": "Converting text from one encoding to another through the incremental converter gives the same output bytes however the source is cut into pieces and however small the destination buffers are, as long as unconsumed source bytes are presented again and the last call flushes; the output equals decoding the whole source and re-encoding each point.", "quantifier": "every source string, every way of cutting it into source pieces, every sequence of destination buffer sizes, every pair of supported encodings", "why_tests_cant": "the number of ways to cut the stream is exponential, and failures occur only when a multibyte character straddles a cut.", "anchors": ["repos/plywood/src/runtime/ply-runtime/io/text/TextConverter.h: TextConverter", "repos/plywood/src/runtime/ply-runtime/io/text/TextConverter.cpp: convert"]}
{"id": "C05", "title": "Newline filter is independent of buffer boundaries", "statement": "The newline filter's output is the input with every carriage return removed and, when CRLF output is selected, every line feed replaced by CR LF, regardless of how input is split over calls and how small the output buffers are.", "quantifier": "every input, every split into calls, every sequence of output capacities, both modes", "why_tests_cant": "needs every split position, including between CR and LF and with a one byte output buffer.", "anchors": ["repos/plywood/src/runtime/ply-runtime/io/text/NewLineFilter.cpp: NewLineFilter, InPipe/OutPipe_NewLineFilter"]}
{"id": "C06", "title": "Label varint encoding round trip", "statement": "Decoding the variable-length encoding of any 32-bit value, followed by arbitrary bytes, returns exactly that value and leaves exactly the following bytes; the encoder writes exactly the number of bytes the length function announced, so it never writes outside the space reserved for it.", "quantifier": "every 32-bit value and every suffix", "why_tests_cant": "four billion values times unbounded suffixes.", "anchors": ["repos/plywood/src/runtime/ply-runtime/string/details/LabelEncoder.h: decodeValue, getEncLen, encodeValue"]}
{"id": "C07", "title": "String interning is faithful", "statement": "Interning a string returns a label whose view is that string; two interned strings get the same label if and only if they are equal; labels handed out earlier keep denoting the same string after any number of further insertions; lookup without insertion finds exactly the strings interned so far.", "quantifier": "every finite history of insertions and lookups of arbitrary byte strings", "why_tests_cant": "properties of whole histories, including hash collisions and chunk changes of the backing storage.", "anchors": ["repos/plywood/src/runtime/ply-runtime/string/Label.h: LabelMap", "repos/plywood/src/runtime/ply-runtime/string/Label.cpp: insertOrFind, find, view"]}
{"id": "C08", "title": "Integer print/parse round trip", "statement": "Printing any unsigned or signed 64-bit integer in radix 2 to 36 and parsing the text in the same radix returns the same integer without error and consumes the whole text; the printed text has no superfluous leading zero and is the positional representation of the value.", "quantifier": "every 64-bit integer, every radix 2..36, every following text that does not continue the number", "why_tests_cant": "2^64 values in 35 radices.", "anchors": ["repos/plywood/src/runtime/ply-runtime/io/impl/FormatString.cpp: printString / print(u64), print(s64)", "repos/plywood/src/runtime/ply-runtime/io/impl/TypeParser.cpp: parse u64/s64"]}
{"id": "C09", "title": "Integer parsing detects overflow exactly", "statement": "Parsing a digit string succeeds with its mathematical value if that value is representable in the destination type, and reports a parse error otherwise, for unsigned, signed and narrower types alike.", "quantifier": "every string of digits of any length, every radix, every destination width and signedness", "why_tests_cant": "digit strings are unbounded and the wrap-around logic is only exercised near 2^64/radix.", "anchors": ["repos/plywood/src/runtime/ply-runtime/io/impl/TypeParser.cpp: parse u64, parse s64", "repos/plywood/src/runtime/ply-runtime/io/impl/TypeParser.h: TypeParser_Integral"]}
{"id": "C10", "title": "Escaped strings read back as the original", "statement": "Writing a string with the escaping printer between double quotes and reading it back with the quoted-string reader returns the original bytes and stops right after the closing quote.", "quantifier": "every byte string and every following text", "why_tests_cant": "all strings over 256 byte values; interactions of escapes, UTF-8 decoding and quote runs.", "anchors": ["repos/plywood/src/runtime/ply-runtime/io/impl/FormatString.cpp: EscapedString", "repos/plywood/src/runtime/ply-runtime/io/impl/TypeParser.cpp: QuotedString"]}
{"id": "C11", "title": "XML escaping cannot inject markup", "statement": "The XML-escaped form of any string contains no '<', '>' or '\"' byte and every '&' in it begins one of the four predefined entities, and resolving those entities gives the original text back.", "quantifier": "every byte string", "why_tests_cant": "security property over all strings, including malformed UTF-8.", "anchors": ["repos/plywood/src/runtime/ply-runtime/io/impl/FormatString.cpp: XMLEscape"]}
{"id": "C12", "title": "URL escaping round trip and alphabet", "statement": "The URL-escaped form of any string consists only of unreserved characters and %XX groups with upper-case hex digits, percent-decoding it gives the original string, and distinct strings have distinct escaped forms.", "quantifier": "every byte string", "why_tests_cant": "all strings over 256 byte values.", "anchors": ["repos/plywood/src/web/common/web-common/URLEscape.cpp"]}
{"id": "C13", "title": "HTTP chunked framing", "statement": "A client that decodes the chunked transfer coding of a response recovers exactly the concatenation of the bytes the handler wrote, followed by the terminating chunk, however the handler splits its writes, and the data itself cannot forge framing.", "quantifier": "every sequence of writes of arbitrary bytes", "why_tests_cant": "unbounded sequences of arbitrary payloads; the payload may itself look like chunk headers.", "anchors": ["repos/plywood/src/web/common/web-common/OutPipe_HTTPChunked.cpp", "repos/plywood/src/web/common/web-common/Server.cpp"]}
{"id": "C14", "title": "Windows command line quoting round trip", "statement": "Quoting an argument for the Windows C runtime and parsing it with the documented CRT rules gives back exactly the original argument.", "quantifier": "every argument byte string", "why_tests_cant": "runs of backslashes of every length before quotes and at the end; empty arguments.", "anchors": ["repos/plywood/src/runtime/ply-runtime/io/impl/FormatString.cpp: CmdLineArg_WinCrt"]}
{"id": "C15", "title": "String comparison is a total order consistent with equality", "statement": "Comparing two byte strings returns a negative, zero or positive number according to the lexicographic order of unsigned bytes; the order is reflexive, antisymmetric, transitive and total and zero exactly for equal strings.", "quantifier": "every pair and triple of byte strings", "why_tests_cant": "sorting and binary search silently break on a single intransitive triple.", "anchors": ["repos/plywood/src/runtime/ply-runtime/string/StringView.cpp: compare", "repos/plywood/src/runtime/ply-runtime/string/StringView.h: operator==, operator<"]}
{"id": "C16", "title": "Split, join and trim laws", "statement": "Splitting by a byte yields exactly the maximal non-empty runs without that byte, in order; joining then splitting gives the pieces back; trimming removes exactly the longest prefix and suffix of matching bytes and is idempotent.", "quantifier": "every byte string, separator and predicate", "why_tests_cant": "unbounded strings with separators in arbitrary positions.", "anchors": ["repos/plywood/src/runtime/ply-runtime/string/StringView.cpp: splitByte, join, trim, reversedBytes"]}
{"id": "C17", "title": "In-place sort", "statement": "Sorting an array view produces a sorted permutation of its contents, terminates, and never reads or writes outside the view, for every comparison that is a strict weak order.", "quantifier": "every array of every length and every strict weak order", "why_tests_cant": "the partition loop's behaviour with duplicates and pivots at the border depends on unboundedly many arrangements.", "anchors": ["repos/plywood/src/runtime/ply-runtime/algorithm/Sort.h: sort"]}
{"id": "C18", "title": "Array editing operations", "statement": "insert, erase, eraseQuick, append, resize and filter leave exactly the items their documentation promises (as a sequence for the order-preserving ones, as a multiset for the quick ones), never touch storage outside the array, and capacity is always at least the number of items.", "quantifier": "every array, every valid position and count, every history of operations", "why_tests_cant": "overlapping source/destination ranges arise only for particular position/count combinations.", "anchors": ["repos/plywood/src/runtime/ply-runtime/container/Array.h: Array::insert, erase, eraseQuick", "repos/plywood/src/runtime/ply-runtime/container/details/BaseArray.cpp", "repos/plywood/src/runtime/ply-runtime/algorithm/Filter.h: filter"]}
{"id": "C19", "title": "Pool hands out stable, unique ids", "statement": "A pool behaves as a finite map from ids to items: an id returned by allocation is not currently in use, stays valid and keeps its item until freed, freeing makes exactly that id invalid, and iteration visits exactly the live items once each in increasing order of id.", "quantifier": "every history of allocate, free, clear and iterate operations", "why_tests_cant": "free-list corruption depends on the history of frees.", "anchors": ["repos/plywood/src/runtime/ply-runtime/container/Pool.h", "repos/plywood/src/runtime/ply-runtime/container/Pool.cpp: BasePool"]}
{"id": "C20", "title": "Hash map behaves as a finite map", "statement": "find returns an item if and only if an item with that key was inserted and not erased since; insertOrFind inserts exactly when the key is absent; erase removes exactly that key; growing the table loses nothing; every operation terminates; iteration yields each live item exactly once.", "quantifier": "every history of insert, find and erase calls, every assignment of hash values to keys", "why_tests_cant": "adversarial hash values and long histories; chain corruption appears only for particular delta values.", "anchors": ["repos/plywood/src/runtime/ply-runtime/container/HashMap.h", "repos/plywood/src/runtime/ply-runtime/container/HashMap.cpp: insertOrFind, insertForMigration, erase, migrateToNewTable"]}
{"id": "C21", "title": "B-tree behaves as a sorted multiset", "statement": "After any history of insertions and removals, iterating the B-tree yields exactly the stored items in non-decreasing index order, lookups return the first item not less than (or the last item less than) the given index, and all leaves are at the same depth with nodes within capacity.", "quantifier": "every history of insertions and removals, every node capacity of at least two, every strict weak order", "why_tests_cant": "node splits and merges depend on long histories.", "anchors": ["repos/plywood/src/runtime/ply-runtime/container/BTree.h: insert, remove, findFirstGreaterOrEqualTo, findLastLessThan, Iterator"]}
{"id": "C22", "title": "Path normalization preserves meaning", "statement": "The joined and normalized path denotes the same location as the joined components when '.' and '..' are resolved lexically, contains no '.' component and no '..' after an ordinary component, and normalizing again changes nothing; leading '..' of a relative path are kept.", "quantifier": "every list of path components, POSIX and Windows formats", "why_tests_cant": "unboundedly long mixtures of '.', '..', empty and absolute components.", "anchors": ["repos/plywood/src/runtime/ply-runtime/filesystem/Path.h: PathFormat", "repos/plywood/src/runtime/ply-runtime/filesystem/Path.cpp: getNormalizedComps, joinAndNormalize, iterateOver"]}
{"id": "C23", "title": "Relative path round trip", "statement": "Joining an ancestor path with the relative path computed from that ancestor to a descendant, then normalizing, gives the normalized descendant.", "quantifier": "every pair of absolute paths", "why_tests_cant": "all pairs of paths with arbitrary common prefixes.", "anchors": ["repos/plywood/src/runtime/ply-runtime/filesystem/Path.cpp: makeRelative, joinAndNormalize"]}
{"id": "C24", "title": "Path splitting is lossless", "statement": "Splitting a path into directory and file name, or file name and extension, loses nothing but separators: the pieces concatenate (with the removed separators) to the original, the file name contains no separator, and the extension starts at the last dot.", "quantifier": "every path byte string, POSIX and Windows formats", "why_tests_cant": "all strings with separators, dots and drive letters in arbitrary positions.", "anchors": ["repos/plywood/src/runtime/ply-runtime/filesystem/Path.cpp: split, splitExt, splitFull"]}
{"id": "C25", "title": "Buffered input delivers the pipe's bytes exactly once and in order", "statement": "Whatever the block size and however the pipe cuts its data into reads, any sequence of byte reads, block reads, skips and read-to-end calls on an input stream delivers consecutive bytes of the pipe's data with none lost, duplicated or invented, and end of file is reported only when the data is exhausted.", "quantifier": "every pipe content, every chunking by the pipe, every block size, every sequence of read requests", "why_tests_cant": "loss occurs only when a request straddles a block boundary.", "anchors": ["repos/plywood/src/runtime/ply-runtime/io/InStream.h", "repos/plywood/src/runtime/ply-runtime/io/InStream.cpp: tryMakeBytesAvailableInternal, readSlowPath, skipSlowPath"]}
{"id": "C26", "title": "Buffered output reaches the pipe exactly once and in order", "statement": "After flushing, the bytes the pipe received are exactly the concatenation of everything written to the output stream, whatever the block size and the sizes of the individual writes; a memory stream's final string is that concatenation; after the pipe reports failure nothing more is sent to it.", "quantifier": "every sequence of writes and flushes, every block size, every point at which the pipe fails", "why_tests_cant": "boundary conditions of block size versus write size over long histories, and every failure point.", "anchors": ["repos/plywood/src/runtime/ply-runtime/io/OutStream.h", "repos/plywood/src/runtime/ply-runtime/io/OutStream.cpp: flushInternal, tryMakeBytesAvailableInternal, writeSlowPath, MemOutStream::moveToString"]}
{"id": "C27", "title": "File descriptor loops survive short reads and writes", "statement": "Writing a buffer to a file descriptor pipe either delivers every byte exactly once in order and returns true, or returns false having delivered a prefix, for every way the operating system splits the writes; reading fills the buffer unless end of file comes first.", "quantifier": "every buffer and every sequence of operating system results (short counts, errors, end of file)", "why_tests_cant": "the OS schedule of short writes cannot be controlled by a test.", "anchors": ["repos/plywood/src/runtime/ply-runtime/io/impl/Pipe_FD.cpp: OutPipe_FD_write", "repos/plywood/src/runtime/ply-runtime/io/Pipe.cpp: InPipe::read"]}
{"id": "C28", "title": "Streaming 128-bit hash equals one-shot hash", "statement": "Feeding a message to the incremental hasher in any pieces and asking for the digest at any points gives the same digest as hashing the whole message (so far) at once; asking for an intermediate digest does not disturb later ones.", "quantifier": "every message and every way of cutting it into pieces, every set of intermediate digest requests", "why_tests_cant": "exponentially many chunkings around the 96/192 byte buffer boundaries.", "anchors": ["repos/plywood/src/runtime/ply-runtime/container/Hash128.h", "repos/plywood/src/runtime/ply-runtime/container/Hash128.cpp: Init, Update, Final, Hash128"]}
{"id": "C29", "title": "Power-of-two helpers are exact", "statement": "Rounding up to a power of two returns the least power of two not below the argument whenever it is representable; aligning returns the least multiple of the alignment not below the argument; the power-of-two test is exact for nonzero arguments; the bit count is the number of set bits.", "quantifier": "every 32-bit and 64-bit value and every power-of-two alignment", "why_tests_cant": "2^64 inputs.", "anchors": ["repos/plywood/src/platform/ply-platform/Util.h: roundUpPowerOf2, alignPowerOf2, isPowerOf2, countSetBits"]}
{"id": "C30", "title": "Integer mixing functions are bijections", "statement": "The avalanche functions on 32-bit and 64-bit integers lose no information: the de-avalanche functions undo them exactly in both directions, so distinct keys never collide before table reduction.", "quantifier": "every 32-bit and every 64-bit integer", "why_tests_cant": "2^64 inputs; a single wrong inverse constant fails on almost, but not necessarily, all samples.", "anchors": ["repos/plywood/src/platform/ply-platform/Util.h: avalanche, deavalanche"]}
{"id": "C31", "title": "Calendar conversion", "statement": "Converting a count of microseconds since the epoch to a calendar date and time and back is the identity; the fields are a valid Gregorian date and time, the date agrees with counting days forward from 1 January 1970 using the leap year rule, and the weekday is right.", "quantifier": "every representable instant, before and after 1970", "why_tests_cant": "400-year cycle, century leap years and negative times; weekday correct on all days.", "anchors": ["repos/plywood/src/runtime/ply-runtime/time/DateTime.cpp: fromEpochMicroseconds, toEpochMicroseconds", "repos/plywood/src/runtime/ply-runtime/time/DateTime.h: DateTime"]}
{"id": "C32", "title": "File offsets map to correct line and column", "statement": "For every offset inside a text, the location map returns the line number (one plus the number of line feeds before it) and the column counted in characters from the start of the line, in agreement with a linear scan.", "quantifier": "every text and every offset", "why_tests_cant": "errors occur only when a multibyte character or line break straddles a 256-byte table boundary.", "anchors": ["repos/plywood/src/runtime/ply-runtime/io/text/FileLocationMap.cpp: fromView, getFileLocation"]}
{"id": "C33", "title": "Template tag extraction", "statement": "Extracting tags from a template passes literal text through unchanged and hands exactly the text between each '<%' and the following '%>' to the tag callback.", "quantifier": "every template text", "why_tests_cant": "interactions of '<', '%' and '>' runs in arbitrary order.", "anchors": ["repos/plywood/src/runtime/ply-runtime/io/text/LiquidTags.cpp: extractLiquidTags"]}
{"id": "C34", "title": "Pylon documents survive writing and parsing", "statement": "Writing a document tree and parsing the text gives an equal tree without error; the parser terminates on every input.", "quantifier": "every document tree with arbitrary nesting, keys and text; every input byte string", "why_tests_cant": "recursive, unboundedly deep trees with arbitrary text.", "anchors": ["repos/plywood/src/pylon/pylon/pylon/Write.cpp", "repos/plywood/src/pylon/pylon/pylon/Parse.cpp"]}
{"id": "C35", "title": "Pylon objects behave as insertion-ordered maps", "statement": "Setting, getting and removing keys of an object behaves as a finite map; iteration order is insertion order of the surviving keys; removing one key leaves every other key's value unchanged.", "quantifier": "every history of set, get and remove operations", "why_tests_cant": "index bookkeeping after removals depends on history.", "anchors": ["repos/plywood/src/pylon/pylon/pylon/Node.cpp: Node::Object get/set/remove"]}
{"id": "C36", "title": "Each cook job runs at most once and everything referenced gets cooked", "statement": "During one cook context every job is cooked at most once, and after the deferred jobs are processed every job transitively referenced from an up-to-date root has been checked and is up to date; a job whose inputs did not change is not cooked.", "quantifier": "every dependency graph, every set of changed files, every order of requests", "why_tests_cant": "all graphs and request orders.", "anchors": ["repos/plywood/src/cook/ply-cook/CookJob.cpp: ensureCooked, cookDeferred, addReference"]}
{"id": "C37", "title": "Spin lock mutual exclusion", "statement": "At no point of any interleaving do two threads hold the spin lock at once; an unlock by the holder always makes the lock acquirable; a failed try does not change the lock.", "quantifier": "every number of threads, every interleaving, every program of lock/unlock pairs", "why_tests_cant": "schedules are unbounded and not controllable from a test.", "anchors": ["repos/plywood/src/runtime/ply-runtime/thread/impl/Mutex_SpinLock.h"]}
{"id": "C38", "title": "Lazily initialized mutex is constructed exactly once", "statement": "For a zero-initialized static mutex used by any number of threads, the underlying mutex is constructed exactly once, no thread uses it before construction is complete, and mutual exclusion holds.", "quantifier": "every number of threads and every interleaving", "why_tests_cant": "the race window of double-checked initialization cannot be hit reliably by tests.", "anchors": ["repos/plywood/src/runtime/ply-runtime/thread/impl/Mutex_LazyInit.h", "repos/plywood/src/runtime/ply-runtime/thread/impl/Mutex_SpinLock.h"]}
{"id": "C39", "title": "Manual reset event", "statement": "A wait on a manual reset event returns only if the event was in the signalled state at the moment it returned from its critical section, never because of a spurious wake-up, and no waiter is left blocked forever if the event is signalled and stays signalled.", "quantifier": "every number of threads, every interleaving of signal, reset and wait, every spurious wake-up", "why_tests_cant": "lost wake-ups and spurious wake-ups are schedule dependent.", "anchors": ["repos/plywood/src/runtime/ply-runtime/thread/impl/ManualResetEvent_CondVar.h"]}
{"id": "C40", "title": "Trace log slots are unique", "statement": "Concurrent tracing never gives the same event slot to two threads and never writes outside a page, whatever the interleaving at page boundaries.", "quantifier": "every number of threads and every interleaving", "why_tests_cant": "races at page turnover are schedule dependent.", "anchors": ["repos/plywood/src/runtime/ply-runtime/thread/impl/Trace_MemLog.h", "repos/plywood/src/runtime/ply-runtime/thread/impl/Trace_MemLog.cpp: allocateEventFromNewPage"]}
{"id": "C41", "title": "Serialized type schemas read back", "statement": "Reading a serialized schema gives back the format graph that was written: same kinds, names, counts and the same sharing and recursion between user-defined formats, and consumes exactly the bytes written.", "quantifier": "every finite type graph, including recursive types", "why_tests_cant": "unboundedly large, cyclic type graphs.", "anchors": ["repos/plywood/src/reflect/ply-reflect/PersistWriteSchema.cpp", "repos/plywood/src/reflect/ply-reflect/PersistReadSchema.cpp"]}
{"id": "C42", "title": "Dependency propagation is exact", "statement": "After propagation the visible dependencies of a build target are exactly itself and the targets reachable from it through public dependency edges, each listed once, and include directories propagate exactly along one edge followed by public edges.", "quantifier": "every acyclic dependency graph with arbitrary public/private edges", "why_tests_cant": "all DAG shapes and visit orders.", "anchors": ["repos/plywood/src/build/target/ply-build-target/Dependency.cpp: propagateDependencyProperties, addDependency"]}
{"id": "C43", "title": "Directory walk visits everything once", "statement": "Walking a directory tree yields every directory reachable from the top exactly once, in depth-first pre-order, with its files and subdirectories, and then ends.", "quantifier": "every finite directory tree", "why_tests_cant": "all tree shapes.", "anchors": ["repos/plywood/src/runtime/ply-runtime/filesystem/FileSystem.cpp: WalkImpl"]}
{"id": "C44", "title": "Conditional save leaves the requested contents, also across crashes", "statement": "Saving contents to a path if different leaves the file with exactly the requested bytes and reports Unchanged exactly when no write was needed; if the process crashes in the middle the file holds either the old or the new contents.", "quantifier": "every prior file system state, every contents, every crash point", "why_tests_cant": "every crash point between truncation and the last short write.", "anchors": ["repos/plywood/src/runtime/ply-runtime/filesystem/FileSystem.cpp: makeDirsAndSaveBinaryIfDifferent, makeDirs"]}
{"id": "C45", "title": "Format strings substitute arguments exactly", "statement": "Formatting substitutes each '{}' by the corresponding argument in order, turns '{{' and '}}' into single braces and copies every other byte; text inserted by an argument is never interpreted as a format directive.", "quantifier": "every format string and every argument list", "why_tests_cant": "all format strings, arguments containing braces.", "anchors": ["repos/plywood/src/runtime/ply-runtime/io/impl/FormatString.cpp: formatInternal"]}
{"id": "C46", "title": "File requests stay inside the served directory", "statement": "A request handled by the file server never reads a file outside the configured root directory; nor does a virtual file system reach outside its root.", "quantifier": "every request path", "why_tests_cant": "all byte strings including '..' mixtures.", "anchors": ["repos/plywood/src/web/common/web-common/FetchFromFileSystem.cpp: FetchFromFileSystem::serve", "repos/plywood/src/web/common/web-common/SourceCode.cpp: SourceCode::serve", "repos/plywood/src/runtime/ply-runtime/filesystem/impl/FileSystem_Virtual.cpp: convertToTargetPath"]}
{"id": "C47", "title": "HTTP request head parsing", "statement": "The server accepts a request exactly when the head has a three-token start line and every header line has a colon, hands the handler the exact tokens, and answers every other complete head with an error response; header names and values are the trimmed text around the first colon.", "quantifier": "every request head byte string", "why_tests_cant": "all byte strings.", "anchors": ["repos/plywood/src/web/common/web-common/Server.cpp: serverThreadEntry"]}
{"id": "C48", "title": "Format matching of special terminators", "statement": "Reading up to and including a terminator consumes input exactly up to the end of the terminator's first occurrence.", "quantifier": "every input and every terminator whose first byte does not recur in it", "why_tests_cant": "false starts of the terminator in arbitrary positions.", "anchors": ["repos/plywood/src/runtime/ply-runtime/io/impl/TypeParser.cpp: scanUpToAndIncludingSpecial"]}
{"id": "C49", "title": "Stepping backwards and reversing text", "statement": "Starting from the end of any bytes followed by the encoding of a code point, stepping back one point skips exactly that encoding (UTF-8 and UTF-16); reversing an arbitrary byte string as UTF-8 terminates, stays in bounds and permutes its bytes; reversing well-formed text reverses its code points.", "quantifier": "all code points, all preceding bytes, all byte strings, all texts", "why_tests_cant": "unbounded text and arbitrary malformed bytes.", "anchors": ["repos/plywood/src/runtime/ply-runtime/string/TextEncoding.cpp: UTF8::backNumBytesSlowPath", "repos/plywood/src/runtime/ply-runtime/string/TextEncoding.h: backNumBytes", "repos/plywood/src/runtime/ply-runtime/string/StringView.cpp: StringView::reversedUTF8"]}
{"id": "C50", "title": "String view searching, slicing and combining", "statement": "startsWith/endsWith hold exactly if the argument is a prefix/suffix; searching forwards (backwards) for a byte class returns the first (last) matching position in range or reports none; a substring request in bounds yields exactly those bytes and any request out of bounds asserts; upper/lower casing changes exactly the ASCII letters; concatenation and repetition give the concatenated bytes.", "quantifier": "all strings, positions, counts and byte predicates", "why_tests_cant": "unbounded strings and positions including ones at which 32-bit sums wrap.", "anchors": ["repos/plywood/src/runtime/ply-runtime/string/StringView.h: startsWith, endsWith, findByte, rfindByte, subStr", "repos/plywood/src/runtime/ply-runtime/string/StringView.cpp: upperAsc, lowerAsc, operator+, operator*"]}
{"id": "C51", "title": "Identifier and whitespace scanning", "statement": "Reading an identifier succeeds exactly if the input starts with an identifier start byte and consumes exactly the longest identifier; skipping (non-)whitespace consumes exactly the longest such run; nothing is consumed on failure.", "quantifier": "every input and flag combination", "why_tests_cant": "unbounded inputs and all byte classes.", "anchors": ["repos/plywood/src/runtime/ply-runtime/io/impl/TypeParser.cpp: parse(Identifier), scanUsingMask"]}
{"id": "C52", "title": "Capturing input text between two positions", "statement": "Reading input, remembering a position, reading on and asking for the text since that position yields exactly the bytes read in between, for every block layout; reading everything that remains yields every remaining byte.", "quantifier": "all inputs, chunkings, block sizes and pairs of positions", "why_tests_cant": "text crossing arbitrarily many internal blocks.", "anchors": ["repos/plywood/src/runtime/ply-runtime/container/BlockList.h: RangeForIterator", "repos/plywood/src/runtime/ply-runtime/container/BlockList.cpp: toString", "repos/plywood/src/runtime/ply-runtime/io/InStream.h: readString"]}
{"id": "C53", "title": "Searching and comparing sequences", "statement": "find returns the least index of an item satisfying the condition and -1 if there is none; rfind the greatest; two views compare equal exactly if they have the same items in the same order.", "quantifier": "all sequences and conditions", "why_tests_cant": "unbounded sequences and arbitrary conditions, including the empty sequence.", "anchors": ["repos/plywood/src/runtime/ply-runtime/algorithm/Find.h: find, rfind", "repos/plywood/src/runtime/ply-runtime/container/ArrayView.h: operator=="]}
{"id": "C54", "title": "Converting paths between formats", "statement": "Converting a path from one format to another changes separators only: the length is kept, each separator of the source becomes the separator of the target, all other bytes stay; the file names in the path are unchanged (from POSIX to Windows as long as no name contains a backslash).", "quantifier": "every path byte string and both directions", "why_tests_cant": "names with either separator inside, repeated separators and drive letters in all positions.", "anchors": ["repos/plywood/src/runtime/ply-runtime/filesystem/Path.cpp: PathFormat::from", "repos/plywood/src/runtime/ply-runtime/filesystem/Path.h: isSepByte, sepByte"]}
{"id": "C55", "title": "Race detector reports exactly the overlaps", "statement": "A detector guarding an activity crashes the program if and only if two of the guarded activities overlapped; serial use by any threads passes.", "quantifier": "every number of threads, every interleaving of enter and exit", "why_tests_cant": "overlaps depend on the schedule.", "anchors": ["repos/plywood/src/runtime/ply-runtime/thread/RaceDetector.h: enter, exit"]}
{"id": "C56", "title": "Trace group registration loses nothing", "statement": "However many threads register counter groups at the same time, walking the list afterwards ends and visits exactly the registered groups, each once; a registration fails to make progress only because another one has succeeded or the exchange failed spuriously.", "quantifier": "every number of threads, every interleaving, every spurious failure", "why_tests_cant": "the race window of a lock-free push cannot be hit reliably.", "anchors": ["repos/plywood/src/runtime/ply-runtime/thread/impl/Trace_Counters.cpp: addGroup, dumpStats"]}
{"id": "C57", "title": "Saved objects load back", "statement": "Saving an object and loading the file as the same type gives an object with the same contents in which every pointer points to the copy of what it pointed to, and consumes exactly the file.", "quantifier": "every acyclic collection of types, every object of them, every pattern of owning and plain pointers, whatever follows the file", "why_tests_cant": "arbitrary nesting of arrays, structs, switches and owned objects, and arbitrary pointer graphs.", "anchors": ["repos/plywood/src/reflect/ply-reflect/Asset.cpp: writeAsset, readAsset", "repos/plywood/src/reflect/ply-reflect/TypeKey.cpp", "repos/plywood/src/reflect/ply-reflect/PersistWriteObject.cpp", "repos/plywood/src/reflect/ply-reflect/PersistReadObject.cpp"]}
{"id": "C58", "title": "Objects saved by an older program load as the new type", "statement": "Loading an object as a changed version of its type succeeds: members, enum values and switch states are matched by name, numbers are converted keeping their value when the new type has it, parts that no longer exist or have another form are passed over, and parts that were not saved keep their defaults.", "quantifier": "every pair of compatible types, every object", "why_tests_cant": "arbitrary combinations of added, removed, reordered and retyped parts at any depth.", "anchors": ["repos/plywood/src/reflect/ply-reflect/TypeKey.cpp", "repos/plywood/src/reflect/ply-reflect/PersistReadObject.cpp: skip"]}
{"id": "C59", "title": "One byte per character", "statement": "In the single-byte encoding every byte decodes to the character of the same number and that character encodes back to the byte; characters above 255 become the replacement byte 0x95.", "quantifier": "every byte and every character number", "why_tests_cant": "all character numbers, not only those in the tests.", "anchors": ["repos/plywood/src/runtime/ply-runtime/string/TextEncoding.h: Enc_Bytes"]}
{"id": "C60", "title": "Markdown documents are written as well-formed HTML", "statement": "Whatever is in a document, the HTML written for it is a properly nested fragment of a fixed set of elements and attributes, and a browser reads it as exactly the tree of the document: no text in it can open or close an element, end an attribute, or become an entity.", "quantifier": "every document tree with heading levels 1 to 6 and no empty item in a tight list, every byte string in it", "why_tests_cant": "injection depends on arbitrary text in arbitrary positions.", "anchors": ["repos/plywood/src/web/markdown/web-markdown/ConvertToHTML.cpp: convertToHTML", "repos/plywood/src/runtime/ply-runtime/string/TextEncoding.cpp"]}
{"id": "C61", "title": "Markdown inline text is read faithfully", "statement": "The inline elements made of a paragraph, written out in Markdown, give back the paragraph character by character; text written without ambiguities is read as it was meant, whatever its nesting; only a paragraph beginning with ]( cannot be read.", "quantifier": "every list of non-empty lines of any bytes", "why_tests_cant": "arbitrary nesting and overlap of delimiters.", "anchors": ["repos/plywood/src/web/markdown/web-markdown/ParseMarkdown.cpp: expandInlineElements, processEmphasis, getCodeSpan, parseLinkDestination"]}
{"id": "C62", "title": "Markdown documents keep their text", "statement": "Every line of a Markdown source is found in the parsed document and nothing else is: a leaf (paragraph, heading or code block) holds exactly the text of its lines without block markers and surrounding white space, and leaves come in the order of the lines. A document of paragraphs, headings and code blocks separated by blank lines is read as exactly these blocks.", "quantifier": "every source of any bytes that parses; for the order, every one whose lists have only items; for the exact reading, every flat document of any length", "why_tests_cant": "arbitrary sequences of lines with arbitrary markers and indentation drive a parser with a stack of open blocks.", "anchors": ["repos/plywood/src/web/markdown/web-markdown/ParseMarkdown.cpp: parse, matchExistingIndentation, parseNewMarkers, parseParagraphText, extractCodeLine"]}
{"id": "C63", "title": "Crowbar sources are cut into tokens without loss", "statement": "The tokens of a Crowbar source, with the white space and comments between them, are the source: each token is reported at its true position with its exact text, takes as many bytes as it can, and has the kind its spelling says. Tokenizing ends for every source. Inside a string, a literal part reads as the characters meant by its escapes.", "quantifier": "every source of any bytes, with line ends significant or not", "why_tests_cant": "arbitrary bytes, unfinished comments and strings, and any mixture of both modes.", "anchors": ["repos/plywood/src/crowbar/ply-crowbar/Tokenizer.cpp: readToken, readName, readNumericLiteral, readLineComment, readCStyleComment, readStringLiteral"]}
{"id": "C64", "title": "Crowbar expressions mean what they look like", "statement": "An expression written with the brackets that the precedence and associativity of the operators of C demand is parsed back as the same tree, whatever its depth, including calls, properties and strings with embedded expressions.", "quantifier": "every expression tree with names, 32-bit numbers and strings of any bytes", "why_tests_cant": "combinations of operators at any depth; the tree is not observable from the results of a few programs.", "anchors": ["repos/plywood/src/crowbar/ply-crowbar/Parser.cpp: parseExpression, parseArgumentList, parseInterpolatedString, BinaryOpPrecedence"]}
{"id": "C65", "title": "Crowbar programs are parsed completely or an error is reported", "statement": "A program that is written down is parsed back as the same functions, parameters and statements without errors; when parsing reports no error, nothing is missing in the tree; and parsing always ends.", "quantifier": "every program of any depth and size, and every source of any bytes", "why_tests_cant": "error recovery and significant line ends interact in arbitrary sequences of tokens.", "anchors": ["repos/plywood/src/crowbar/ply-crowbar/Parser.cpp: parseFile, parseFunctionDefinition, parseParameterList, parseStatementBlock, parseStatement", "repos/plywood/src/crowbar/ply-crowbar/ParseUnexpected.cpp"]}
{"id": "C66", "title": "Crowbar tokens can be put back and looked up", "statement": "Reading a token, putting it back and reading it again gives the same token, in whatever mode the tokenizer is: the tokens a parser gets are those of the source, although each is kept only in a compact form. A token that was read can be looked up later by its index, as error messages at run time do, and is found at its position with its kind and name.", "quantifier": "every source of up to 16 MiB, every sequence of requests, and every label map", "why_tests_cant": "the compact form has variable length and a table per 256 bytes: faults appear only at particular alignments of particular tokens.", "anchors": ["repos/plywood/src/crowbar/ply-crowbar/Tokenizer.cpp: encodeToken, expandTokenInternal, readToken, expandToken", "repos/plywood/src/crowbar/ply-crowbar/Tokenizer.h: rewindTo"]}
{"id": "C67", "title": "Crowbar programs run as they mean", "statement": "Running a function of a Crowbar file writes what the program means when a variable is a name for a value and assigning, passing and returning copy values: the same texts in the same order, and the same error with the same functions in its trace. A program that is not wrong by itself (division by zero, operands of different types, wrong number of arguments) is run without undefined behaviour. When a call ends, its local variables and temporaries are gone and the objects of its callers are untouched.", "quantifier": "all programs (any nesting of functions, statements and expressions), all calls, any depth of recursion", "why_tests_cant": "tests run a handful of programs; whether a value that is handed on is copied, moved or aliased depends on where its object happens to be on the stack, so programs that differ in an unrelated variable can behave differently", "anchors": ["repos/plywood/src/crowbar/ply-crowbar/Interpreter.cpp: eval, evalCall, evalString, evalBinaryOp, execAssign, execIf, execWhile, execBlock, execFunction", "repos/plywood/src/reflect/ply-reflect/methods/ObjectStack.cpp: deleteRange, appendObject", "repos/plywood/src/apps/CrowbarTest/Main.cpp: callScriptFunction, doPrint"]}
{"id": "C68", "title": "Numbers with fraction and exponent are read as written", "statement": "Parsing a floating-point number takes exactly the longest well-written number at the start of the input and yields the number it denotes, up to the rounding of the arithmetic; integers up to 2^53 are read exactly. An error is reported whenever the input does not begin with a well-written number.", "quantifier": "every input, every radix from 1 to 36, any number of digits before and behind the point and in the exponent, every way of rounding", "why_tests_cant": "the code changes its way of summing up a fraction when a 64-bit denominator would overflow: only long fractions in particular radixes show whether it notices", "anchors": ["repos/plywood/src/runtime/ply-runtime/io/impl/TypeParser.cpp: TypeParser<double>::parse, readDoubleComponent"]}
{"id": "C69", "title": "Objects saved as Pylon come back when they are loaded", "statement": "Exporting an object of a reflected type to Pylon, writing the text, parsing it and importing it gives an object with the same contents, whatever the target held before. Importing changes exactly the members the text mentions, ignores unknown names, and leaves every object in a state that belongs to its type.", "quantifier": "every set of reflected types and every contents made of structs, strings, bools, arrays, switches, enums and pointers, of any depth; every tree for the import", "why_tests_cant": "settings files are tested with the members they have today; that arbitrary nested types survive, that old files with missing members load, and that no tree leaves an ill-typed object concerns all types and trees", "anchors": ["repos/plywood/src/pylon/reflect/pylon-reflect/Export.cpp: exportObj", "repos/plywood/src/pylon/reflect/pylon-reflect/Import.cpp: convertFrom, import"]}
{"id": "C70", "title": "Reference-counted objects live exactly as long as they are referenced", "statement": "An object that can be reached from a variable through references is never destroyed; when the last reference goes, the object is destroyed at once, exactly once, with everything only it kept alive, and nothing else changes; without circles of references nothing is left behind. This holds for every sequence of creating, copying, moving, assigning, clearing and releasing references, and for several threads that copy and drop references to one object in any order.", "quantifier": "all object graphs and all sequences of operations with fewer than 65535 references to one object; all interleavings of any number of threads", "why_tests_cant": "lifetimes depend on the whole graph of objects: chains, shared parts, circles, assignments into the object that is being given up, and thread schedules cannot be enumerated", "anchors": ["repos/plywood/src/runtime/ply-runtime/container/Reference.h: RefCounted, Reference", "repos/plywood/src/runtime/ply-runtime/container/WeakRef.h: DualRefCounted"]}
{"id": "C71", "title": "Texts saved in a format load again, and the format is recognised", "statement": "A text written in any Unicode format (UTF-8 or UTF-16 of either byte order, with or without byte order mark, either kind of line ends) reads back as the same text without carriage returns. Detection of the format never fails, finds every byte order mark, finds UTF-8 for every valid text and either UTF-16 for texts of plain characters, so that loading a saved file without knowing its format gives the text, and saving it again in the detected format gives the same file.", "quantifier": "all texts and all formats; all files for the detection, whatever the rounding of the floating point scores", "why_tests_cant": "detection weighs counts over a whole file; which texts are mistaken for another encoding cannot be found by trying files, and round trips have to hold for every text", "anchors": ["repos/plywood/src/runtime/ply-runtime/io/text/TextFormat.cpp: autodetect, createImporter, createExporter, scanTextFile, guessFileEncoding", "repos/plywood/src/runtime/ply-runtime/filesystem/FileSystem.cpp: loadTextAutodetect"]}
{"id": "C72", "title": "C++ source is split into tokens without loss, and every token knows where it came from", "statement": "The tokens read from a C++ source are pieces of it in order: between them is only white space, or bytes for which an error was reported. What is written as separate tokens is read back as the same tokens, and the longest possible operator is taken. The location of a token leads back to the file, or to the text of the macro, in which it stands, at the right place. Reading ends if no macro leads back to itself.", "quantifier": "every source of any bytes, every set of macros, any number of tokens", "why_tests_cant": "which bytes stand together in a source is arbitrary: comments, strings, directives and macros nest and end each other in any combination, and the location of a token depends on all expansions before it", "anchors": ["repos/plywood/src/cpp/ply-cpp/Preprocessor.cpp: readToken, readIdentifierOrLiteral, readNumericLiteral, readMacroArguments, readPreprocessorDirective, addPPDef", "repos/plywood/src/cpp/ply-cpp/PPVisitedFiles.h", "repos/plywood/src/cpp/ply-cpp/Token.cpp", "repos/plywood/src/cpp/ply-cpp/ErrorFormatting.cpp: expandFileLocation"]}
{"id": "C73", "title": "A sequence behaves like a list, keeps its items in place and destructs each once", "statement": "Whatever is done with a Sequence (appending, writing by views, popping, truncating, clearing), iterating over it forwards, backwards or by views gives the same items as the same operations on a list, and isEmpty, numItems, head, tail, read and moveToArray agree with it. An item that is not removed never moves. Every item popped, cleared or left at the end is destructed exactly once and every block is freed. A position saved with end() can be truncated to later.", "quantifier": "all sequences of operations, items of any type of 1 to 2048 bytes, any number of blocks", "why_tests_cant": "whether an operation crosses a block boundary depends on everything done before; tests with a few items stay in the first block", "anchors": ["repos/plywood/src/runtime/ply-runtime/container/Sequence.h: Sequence, WeakSequenceRef", "repos/plywood/src/runtime/ply-runtime/container/Sequence.cpp", "repos/plywood/src/runtime/ply-runtime/container/BlockList.h", "repos/plywood/src/runtime/ply-runtime/container/BlockList.cpp: Footer, appendBlock, jumpToNextBlock, jumpToPrevBlock, weakRefToNext, toString"]}
{"id": "C74", "title": "The parser for C++ takes every token in order, ends, and reports the errors it finds", "statement": "Parsing a C++ text ends, for every text, without failing an assertion. However much is tried and taken back, every token is consumed in order, none is lost or read twice, comments are passed on once, and parsing ends at the end of the file. If the declarations are not correct, at least one error is passed to the error handler; errors found while something is only tried are not reported. The tree tells apart what is different.", "quantifier": "every text of any bytes, every state of the parser in which one of its functions is called, any depth of nesting", "why_tests_cant": "texts are arbitrary and mostly wrong while they are being typed; push-back, nested restore points and error recovery interact in ways a list of test files does not cover", "anchors": ["repos/plywood/src/cpp/ply-cpp/Parser.h", "repos/plywood/src/cpp/ply-cpp/Parser.cpp: error", "repos/plywood/src/cpp/ply-cpp/ParseMisc.cpp: readToken, pushBackToken, okToStayInScope, skipAnyScope, handleUnexpectedToken", "repos/plywood/src/cpp/ply-cpp/RestorePoint.h", "repos/plywood/src/cpp/ply-cpp/ParseDeclarations.cpp", "repos/plywood/src/cpp/ply-cpp/ParseSpecifiersAndDeclarators.cpp", "repos/plywood/src/cpp/ply-cpp/ParseQualifiedID.cpp", "repos/plywood/src/cpp/ply-cpp/ParseParameterList.cpp", "repos/plywood/src/cpp/ply-cpp/ParseExpressions.cpp"]}
{"id": "C75", "title": "Correct C++ declarations are parsed into the tree they mean", "statement": "Declarations that are written correctly (variables, functions with and without body, constructors, destructors, operators, classes with members, base and nested types, enumerations, templates, namespaces, linkage specifications, using, static_assert, access specifiers) are parsed, without any error, into exactly the tree a grammar of C++ assigns to them, up to the end of the file. No source has two trees. The contents of function bodies have no influence on it.", "quantifier": "all sequences of declarations the grammar generates, of any length and depth of nesting; all function bodies whose brackets match", "why_tests_cant": "declarations nest without bound, and the parser decides by trying and taking back what a name in a class begins; a list of test files shows only the combinations in it", "anchors": ["repos/plywood/src/cpp/ply-cpp/ParseDeclarations.cpp", "repos/plywood/src/cpp/ply-cpp/ParseSpecifiersAndDeclarators.cpp", "repos/plywood/src/cpp/ply-cpp/ParseQualifiedID.cpp", "repos/plywood/src/cpp/ply-cpp/ParseParameterList.cpp", "repos/plywood/src/cpp/ply-cpp/ParseExpressions.cpp", "repos/plywood/src/cpp/ply-cpp/Grammar.h"]}
{"id": "C76", "title": "Image operations change the pixels of their destination and nothing else", "statement": "Every pixel of an image has its own bytes inside its memory, and a part of an image shows the same bytes. Copying gives an equal image in memory of its own, flipping the rows in reverse order, clearing the value in every pixel, converting to 16-bit floats the nearest lower 16-bit float in every component, converting to sRGB the same value in every pixel; each changes no byte outside the pixels of the destination, neither padding between rows nor other memory, and also works for rows stored from the bottom.", "quantifier": "images of any size, format, stride (also negative) and position in memory, every part of them, every pixel; all bit patterns of a 32-bit float", "why_tests_cant": "width, height, stride and format are independent, so that an access outside appears only for some combinations, and there are four billion floats", "anchors": ["repos/plywood/src/image/image/image/Image.h: Image, OwnImage, crop, getPixel, toRGBA, toABGR", "repos/plywood/src/image/image/image/Image.cpp: linearToSRGB, copy, clear, verticalFlip, copy32Bit, convertFloatToHalf, convertFloat4ToHalf4, convertFloat2ToHalf2"]}
{"id": "C77", "title": "Axis directions, axis rotations and boxes agree with the vectors they stand for", "statement": "Operations on directions along an axis (dot, cross, negate, sign, conversion to a vector) give what the same operations on unit vectors give. Rotations made of axis directions (products, inverse, identity, application to directions and vectors, matrices, enumeration, order) behave as the rotations of space they stand for, and never fail an assertion for directions that are perpendicular; with a translation, too. Boxes: contains, intersect, union, expand and isEmpty agree with the sets of points of the boxes.", "quantifier": "all directions, all 48 rotations and reflections of the axes, vectors over any commutative ring, all boxes with integer coordinates", "why_tests_cant": "the operations are bit tricks on small codes whose meaning is geometric; that they agree with geometry must hold for every vector and every product of rotations", "anchors": ["repos/plywood/src/math/math/ply-math/AxisVector.h: Axis3, Axis2, AxisRot, AxisRotPos, Reflection", "repos/plywood/src/math/math/ply-math/AxisVector.cpp", "repos/plywood/src/math/math/ply-math/Box.h", "repos/plywood/src/math/math/ply-math/IntVector.h"]}
{"id": "C78", "title": "Quaternions, matrices, projections and curves compute the transformations they are named after", "statement": "A quaternion of an axis and an angle rotates every vector about that axis by that angle; products, inverses, interpolation, conversion to matrices and back preserve this. Products, transposes and inverses of matrices are those of linear algebra, in all sizes and mixtures. Projections map the view to the cube, movements compose and invert, the basis and look-at functions give rotations that take the given directions to the given axes, approach goes straight and not too far, and curves pass through their ends with the derivative given.", "quantifier": "all vectors, angles, quaternions, matrices, rectangles and curves of real numbers", "why_tests_cant": "a formula with one wrong sign or subscript agrees with the right one for the identity and for symmetric arguments, which is what tests tend to use; the set of rotations is continuous", "anchors": ["repos/plywood/src/math/math/ply-math/Vector.h", "repos/plywood/src/math/math/ply-math/Vector.cpp", "repos/plywood/src/math/math/ply-math/Quaternion.h", "repos/plywood/src/math/math/ply-math/Quaternion.cpp", "repos/plywood/src/math/math/ply-math/Matrix.h", "repos/plywood/src/math/math/ply-math/Matrix.cpp", "repos/plywood/src/math/math/ply-math/QuatPos.h", "repos/plywood/src/math/math/ply-math/QuatPos.cpp", "repos/plywood/src/math/math/ply-math/Complex.h", "repos/plywood/src/math/math/ply-math/Extra.h", "repos/plywood/src/math/math/ply-math/Interpolate.h", "repos/plywood/src/math/math/ply-math/Core.h"]}
{"id": "C79", "title": "The random number generator runs through all its states before it repeats, whatever its seed", "statement": "From every seed, and whatever time, timer and thread it was made with, a Random returns numbers that repeat only after exactly 2^128-1 calls. In that time every 64-bit number is returned 2^64 times, zero one time fewer, and each value of the shorter numbers equally often in the same sense. Different seeds give sequences that differ within the first two numbers, and all are stretches of the same cycle. A fraction lies between 0 and 1 (both occur) and is the float nearest to the number drawn.", "quantifier": "all seeds, all environments, all numbers of calls, all 64-bit values", "why_tests_cant": "the period is 2^128-1: no run can reach its end, and a seed that leads into a short cycle or the zero state could be any of 2^64", "anchors": ["repos/plywood/src/runtime/ply-runtime/algorithm/Random.h: Random, next32, next16, next8, nextFloat", "repos/plywood/src/runtime/ply-runtime/algorithm/Random.cpp: Random::Random, next64", "repos/plywood/src/runtime/ply-runtime/Core.h: avalanche"]}
{"id": "C80", "title": "A child process gets the streams that were asked for, and its pipes end when they should", "statement": "A started program has as standard input, output and error exactly the file, null device or new pipe that was asked for, sees the given arguments, and inherits otherwise only what the parent has open and not marked; the parent gains the handles and leaks no descriptor. Whatever programs are started before or after, and in whatever order they end, reading a program's output comes to its end exactly when that program is done with it, its input comes to an end exactly when the handle is closed, and writing to it fails once it is done. join returns the exit code (modulo 256) once.", "quantifier": "all tables of open descriptors, all combinations of input and output, all sequences of starting programs, closing, opening and ending", "why_tests_cant": "whether a pipe reaches its end depends on which descriptors every other process alive happens to have inherited; a leaked end shows only as a program that hangs when another one is still running", "anchors": ["repos/plywood/src/runtime/ply-runtime/process/Subprocess.h: Subprocess", "repos/plywood/src/runtime/ply-runtime/process/impl/Subprocess_POSIX.cpp: exec, join", "repos/plywood/src/runtime/ply-runtime/io/impl/Pipe_FD.cpp", "repos/plywood/src/runtime/ply-runtime/string/StringView.cpp: withNullTerminator"]}
{"id": "C81", "title": "Mixing audio adds exactly the scaled samples, limited to their range, and touches nothing else", "statement": "mix, mixLeveled and mixDynLevel add to every sample of the destination the source sample times its level (fixed, or running straight from sample to sample), rounded down and limited to 16 bits; samples outside of the region stay as they are. mixPitchedDirect reads the source at evenly spaced positions with linear interpolation that never overshoots. Mixing in blocks is the same as mixing at once. Regions of buffers lie where they should or are refused.", "quantifier": "all samples, levels, volumes, steps, memory contents, buffers and overlaps", "why_tests_cant": "overflow, wrap-around and rounding depend on the combination of sample, level and position; a click every few million samples is not found by listening", "anchors": ["repos/plywood/src/audio/primitives/audio-primitives/Render.cpp: mix, mixLeveled, mixDynLevel, mixPitchedDirect", "repos/plywood/src/audio/primitives/audio-primitives/Saturate.h: saturatingAdd", "repos/plywood/src/audio/primitives/audio-primitives/Buffer.h: getSubregion, getSizeBytes, zero", "repos/plywood/src/audio/primitives/audio-primitives/Format.h: encode, operator=="]}
{"id": "C82", "title": "Instantiating a project runs each needed module function once, links what it asked for, and reports loops", "statement": "For any set of root targets, instantiation ends: with success exactly when no chain of requests among what they need goes on for ever and no function asks twice for the same thing, and with a report otherwise. On success every target and extern needed is instantiated once and nothing else is; each target has exactly the dependencies its function asked for, in order and with the visibility asked for, less the externs that are not available; the externs that lack a selected or installed provider are the ones reported, and with none of them the build system can be written. The graph has no cycles, so that propagation of properties (C42) gives each target what the graph says, if at most the first root target is to be shared.", "quantifier": "all projects (any functions asking for anything), all lists of root targets with or without sharing, all selections of providers", "why_tests_cant": "loops and repeated requests depend on the order in which functions are reached; which library a target ends up in depends on all root targets before it", "anchors": ["repos/plywood/src/build/repo/ply-build-repo/ProjectInstantiator.cpp: instantiate, propagateAllDependencies, writeCMakeLists", "repos/plywood/src/build/repo/ply-build-repo/ModuleArgs.cpp: addDependency, addTarget, addExtern, instantiatorError", "repos/plywood/src/build/folder/ply-build-folder/BuildFolder.cpp: instantiateAllTargets"]}
{"id": "C83", "title": "Names of modules, externs and providers mean what they should, and lead back to what they name", "statement": "A name is accepted exactly if it consists of identifiers joined by dots. On the command line the name of a module or extern is resolved exactly if it gives the repo, or is the only one of its name in all repos; the name of a provider accordingly. In a module function a name is resolved among the repo and those that it depends on, directly or not and even in a circle, and no other repo can change its meaning. Adding a module or a provider changes only what it should. Fully qualified and short names, which are stored and shown, lead back to what they name.", "quantifier": "all registries of repos with any dependencies, all texts", "why_tests_cant": "whether a name is ambiguous depends on all repos together, including ones added later; a stored name that resolves today may be refused after another repo is cloned", "anchors": ["repos/plywood/src/build/repo/ply-build-repo/DependencySource.cpp: splitName, getFullyQualifiedName", "repos/plywood/src/build/repo/ply-build-repo/RepoRegistry.cpp: findTargetInstantiator, findExtern, getExternProvider, getShortDepSourceName, getShortProviderName", "repos/plywood/src/build/repo/ply-build-repo/Repo.cpp: RepoVisitor, findChildRepo, findExternRecursive, findOrCreateExtern, findTargetInstantiatorRecursive, addTargetInstantiator, addExternProvider", "repos/plywood/src/build/repo/ply-build-repo/ExternProvider.cpp: getFullyQualifiedName", "repos/plywood/src/build/repo/ply-build-repo/ModuleArgs.cpp: addTarget, addExtern"]}
{"id": "C84", "title": "The documentation server shows the right table of contents and reads only its own pages", "statement": "For every table of contents and every page requested, the browser sees each entry exactly once and in its place, with its title as text; open are exactly the entries on the way to the page's entry, and that one is selected. The file read for a request is the page it names inside the folder of pages: index.html of a directory, else the name with .html appended; no other kind of file is ever read. A page asked for without its frame is its title and its body unchanged.", "quantifier": "all tables of contents of any depth and with any texts, all requests, all root folders and all layouts of directories", "why_tests_cant": "which entries are open depends on the whole table and on duplicate links; the file read depends on the request, the root and the directories there are, and escapes only show for requests nobody tried", "anchors": ["repos/plywood/src/web/serve-docs/ply-web-serve-docs/DocServer.cpp: dumpContents, populateContentsMap, getPageSource, DocServer::serve, serveContentOnly", "repos/plywood/src/web/documentation/web-documentation/Contents.h: Contents", "repos/plywood/src/apps/WebServer/WebServer.cpp: myRequestHandler, main"]}
{"id": "C85", "title": "Owning pointers destroy what they own exactly once, and functors what they hold", "statement": "Whatever is done with owning pointers (creating objects in variables and in members of objects, moving, assigning, releasing, clearing): as long as no assertion fails and nothing destroyed is touched, each object ever made exists or was destroyed, never both and never twice. Clearing or overwriting a pointer destroys exactly what it owns, directly or not, what is owned before its owner. A move from a place that exists goes wrong exactly if source and destination are the same non-null pointer or the source belongs to what the destination owns. A program without raw pointers that moves nothing into itself leaks nothing: when its variables are gone all objects were destroyed. Functors never share or delete twice what they hold, and delete it when they go.", "quantifier": "all programs of any length, object graphs of any shape and size", "why_tests_cant": "whether a move touches what it destroyed depends on the shape of the graph at that moment; leaks need all variables and all members of all objects at once", "anchors": ["repos/plywood/src/runtime/ply-runtime/container/Owned.h: Owned", "repos/plywood/src/runtime/ply-runtime/container/Subst.h: destroyByMember", "repos/plywood/src/runtime/ply-runtime/container/Functor.h: Functor"]}
{"id": "C86", "title": "Removing a directory removes that directory with all it contains, and nothing else", "statement": "For a directory named by a path without dots and links, removing it leaves the disk exactly as it was without the directory and everything below, whatever its depth; links in it are removed, not what they lead to. Even when removing does not come to its end, nothing outside the directory is ever removed, and success is reported only if nothing of it is left. Deleting a file or link removes that one thing.", "quantifier": "all disks with files, directories and symbolic links in any number and depth, all paths and current directories, all links", "why_tests_cant": "what is removed depends on every link and every name in the tree and on the order in which directories list them; a mistake shows as lost files elsewhere on the disk", "anchors": ["repos/plywood/src/runtime/ply-runtime/filesystem/impl/FileSystem_POSIX.cpp: removeDirTree, deleteFile, DirImpl::begin, DirImpl::nextImpl", "repos/plywood/src/runtime/ply-runtime/filesystem/FileSystem.h: FileSystem::removeDirTree, deleteFile, listDir"]}
{"id": "C87", "title": "Cleaning up a source file replaces its header and nothing else", "statement": "Given a header and the text of a source file, the clean-up command writes the header followed by the file without the lines it takes for the old header. What it takes away are whole lines at the top of the file, none of them blank, ending before the first token that is not a comment, and reaching up to the first blank line or up to the line that token is in. If these lines are white space and complete comments (and the new header is too), the sequence of tokens other than comments is the same before and after, and cleaning up again changes nothing. The command succeeds exactly if the file has a token that is not a comment.", "quantifier": "All headers and all source texts below 4 GB whose part before the first token is ASCII; for the code and for idempotence: headers and removed lines that consist of white space and complete comments (without two stars in a row inside).", "why_tests_cant": "Tests run the command on the files of the repository, which all have the same header already; a cut inside a comment, a file without code or a header that shares a line with code need texts nobody wrote for a test, and that the code stays the same is a statement about all files.", "anchors": ["repos/plywood/src/audio/primitives/audio-primitives/plytool/plytool/Command_Cleanup.cpp: checkFileHeader, command_cleanup", "repos/plywood/src/cpp/ply-cpp/Preprocessor.cpp: readToken", "repos/plywood/src/cpp/ply-cpp/ErrorFormatting.cpp: expandFileLocation"]}
{"id": "C88", "title": "The command-line tool does what its command line says, and nothing of it is passed over", "statement": "If no argument is empty, the command carried out is exactly the one asked for: every word is (an abbreviation of) the name of the command or what it is applied to, every option is one of the options of that command, given once; nothing is ignored. Every command with every combination of its options can be asked for, with options anywhere and in any order. Two letters of a command's name mean the same as the whole name, one letter is refused. An unknown option, or one given twice, never leads to a command being carried out.", "quantifier": "all command lines (any number of arguments of any bytes), with or without a current build folder", "why_tests_cant": "abbreviations, options in any place and options shared between commands make the number of command lines endless; a command line wrongly accepted deletes or builds something else than meant", "anchors": ["repos/plywood/src/audio/primitives/audio-primitives/plytool/plytool/Main.cpp: main", "repos/plywood/src/audio/primitives/audio-primitives/plytool/plytool/ConsoleUtils.cpp: CommandLine, prefixMatch, ensureTerminated", "repos/plywood/src/audio/primitives/audio-primitives/plytool/plytool/CommandHelpers.cpp: AddParams::extractOptions, BuildParams::extractOptions", "repos/plywood/src/audio/primitives/audio-primitives/plytool/plytool/Command_Folder.cpp, Command_Target.cpp, Command_Module.cpp, Command_Extern.cpp, Command_Generate.cpp, Command_Build.cpp, Command_Run.cpp"]}
{"id": "C89", "title": "A conversion recipe fills each member of a struct from the member of the same name, and touches nothing else", "statement": "Given the description of a destination struct and of several source structs, a recipe can be made if every member of the destination is found in a source with the same kind of type within the first 64 KB; a member found nowhere fails an assertion. Following the recipe gives every number of the destination, at any depth of arrays and with any strides, exactly the bytes of the number with the same member name and indices in the first source that has that name; items that the source does not have, and all other bytes of memory, stay as they are.", "quantifier": "all struct layouts (any members, nested arrays, counts and strides), any number of sources, all contents of memory; without arrays of variable size", "why_tests_cant": "the recipe is a small program made from type descriptions; that it does the right thing for every layout is a statement about a compiler and an interpreter together", "anchors": ["repos/plywood/src/reflect/ply-reflect/TypeConverter.cpp: createConversionRecipe, makeConversionRecipe, applyConversionRecipe, convert"]}
{"id": "C90", "title": "Titles of members are read and shown as they are written", "statement": "The title of a member in the documentation is text in which parts in square brackets are strong, emphasized or names. It is read without an error exactly if it is such text (brackets closed, not nested, with a known kind and a space), and the parts are then those meant; any parts can be written so. Whatever the title, nothing is shown that is not in it, nor in another order. In the HTML each part shows its text in its own markup and nothing else, and a name is a link if it leads somewhere.", "quantifier": "all titles (any bytes), all lists of parts, all functions that give the place a name leads to; the HTML for text without overlong UTF-8", "why_tests_cant": "errors in titles are ignored when pages are made, so that a wrong reading only shows in the page; that escapes and brackets always give back the text is a statement about all texts", "anchors": ["repos/plywood/src/web/cook-docs/ply-web-cook-docs/SymbolTitle.cpp: parseTitle, writeAltMemberTitle", "repos/plywood/src/web/cook-docs/ply-web-cook-docs/SymbolTitle.h: TitleSpan", "repos/plywood/src/web/cook-docs/ply-web-cook-docs/CookResult_Page.cpp: Page_cook"]}
{"id": "C91", "title": "Cores and hardware threads of the machine are told as the kernel describes them", "statement": "On Linux, from a description of the processors in which all of them give their package or core number or none does, the table has one core for each different pair of package and core, with exactly the processors that have this pair; each processor occurs once, and there are as many threads as processors. Without a description there is one core with one thread, and the table says that it is not accurate. Whatever the description, there is at least one core, each core has a thread, and binding is defined for exactly the cores and threads told. Each processor can be bound to, and binding asks the kernel for exactly the one meant.", "quantifier": "all texts of /proc/cpuinfo, with any number of processors in any order and any other lines in between; also its absence", "why_tests_cant": "tests see the one machine they run on", "anchors": ["repos/plywood/src/runtime/ply-runtime/thread/impl/Affinity_Linux.cpp: Affinity_Linux, setAffinity", "repos/plywood/src/runtime/ply-runtime/thread/impl/Affinity_Linux.h: CoreInfoCollector, getNumPhysicalCores, getNumHWThreads, getNumHWThreadsForCore"]}
{"id": "C92", "title": "Documentation comments end up in the page of their class, each exactly once and in its place", "statement": "For a class in which comments stand before single members or before groups of members, and comments begin categories, each documented member or group becomes one entry with exactly its text, in the category begun last, without any error; its page shows the data members, then the functions of each category in order of first mention, then the other functions, each under its heading, all of them exactly once, in the order of the source. Text that no member follows is reported.", "quantifier": "all classes documented in this way, of any size, with any texts, groups, categories and undocumented members in between", "why_tests_cant": "comments and declarations work together by state kept between them, so that a comment is lost or goes to another member only in certain sequences; a test of the page needs all of them", "anchors": ["repos/plywood/src/web/cook-docs/ply-web-cook-docs/CookResult_ExtractAPI.cpp: APIExtractor::parseDocString, onGotDeclaration, exit", "repos/plywood/src/web/cook-docs/ply-web-cook-docs/CookResult_Page.cpp: dumpExtractedMembers", "repos/plywood/src/web/cook-docs/ply-web-cook-docs/SemaEntity.h: DocInfo"]}
{"id": "C93", "title": "Code in a description links to the page of what it names", "statement": "A piece of code in a description of members becomes a link exactly if it is a name, qualified or not and with or without () at its end, that means something in one of the members described or else in their class, if the first such thing is not itself among those described there, and if that thing, or the class it is a member of, has a page; the link leads to this page, and for a member to its place in it. A name means what it does by the rules of scopes: its first part is looked for from the inside out, the others are followed down. The full name of a class that can be reached by names leads back to it.", "quantifier": "all collections of namespaces, classes, members and parameters, nested to any depth, all indexes of pages, all groups of members, and all texts that do not begin with a colon", "why_tests_cant": "a wrong link only shows as a link to the wrong page, or none; which one depends on what else bears the same name in the whole code base", "anchors": ["repos/plywood/src/web/cook-docs/ply-web-cook-docs/SemaEntity.cpp: SemaEntity::lookup, lookupChain, appendToQualifiedID", "repos/plywood/src/web/cook-docs/ply-web-cook-docs/CookResult_Page.cpp: getLinkDestination, getLinkDestinationFromSpan, resolveClassScope, LookupContext"]}
{"id": "C94", "title": "Descriptions are shown completely, with their links leading to the pages meant", "statement": "All text of a description is shown, in order. Text in a link stays in this link; a link by the ID of a page, with or without a place in it, leads to this page and place, and any other link where it says; code outside of links becomes a link exactly if it leads somewhere, and nothing else becomes a link, in particular no link is put into a link. A heading that is nothing but a link to a # place is no link but bears this name.", "quantifier": "all descriptions as the parser gives them (any tree of nodes without links or headings in links), all indexes of page IDs, and any function that tells where code leads", "why_tests_cant": "the tree is changed while it is walked; whether a node is lost, visited twice or used after it is gone depends on the shape of the tree and on which pages exist", "anchors": ["repos/plywood/src/web/cook-docs/ply-web-cook-docs/CookResult_Page.cpp: visitAll, parseMarkdown", "repos/plywood/src/web/markdown/web-markdown/Markdown.h: Node", "repos/plywood/src/web/cook-docs/ply-web-cook-docs/WebCookerIndex.h: LinkIDTraits"]}
{"id": "C95", "title": "All pages of the documentation are made and shown in the table of contents, in the order asked for", "statement": "Every page in the documentation folders is made and has a line in the table of contents with its title and address, each once and in the same order; the childOrder tag of a page puts the pages below it in the order in which it names them, and reports names that are not pages below it. Pages with text have different addresses.", "quantifier": "all trees of folders and pages, of any depth and size, all texts of any number of childOrder tags, all link IDs, whether different or not", "why_tests_cant": "the tag changes the list while pages are looked for and moves its last entry about; what is lost shows in no message but that of the tag, and depends on all names in the folder", "anchors": ["repos/plywood/src/web/cook-docs/ply-web-cook-docs/CookResult_ExtractPageMeta.cpp: cook_ExtractPageMeta", "repos/plywood/src/web/cook-docs/ply-web-cook-docs/CookResult_ExtractPageMeta.h: getLinkDestination", "repos/plywood/src/apps/WebCooker/Main.cpp: visitPageMetas, convertContents"]}
{"id": "C96", "title": "The code generator changes only its own lines in source files", "statement": "When the code generator goes over a source file, it takes out the lines it put there before and puts in one for each class with a switch, in a line of its own before the closing brace of the class. Everything else in the file stays as it is, byte for byte. Going over the file a second time changes nothing.", "quantifier": "all source files of any length in which an include is in a line of its own and at most one class with a switch is closed in a line, with any indentation, any other text before or after the brace, and old lines anywhere", "why_tests_cant": "positions are found by walking back from the brace or directive and are applied to the file by offsets; whether text is lost or lines pile up depends on the layout of the file, and shows only when the tool is run again and again", "anchors": ["repos/plywood/src/apps/plytool/plytool/ReflectionHooks.cpp: insertDirectiveSubst, ReflectionHooks::onGotInclude, ReflectionHooks::exit", "repos/plywood/src/apps/plytool/plytool/Command_CodeGen.cpp: performSubsts"]}
{"id": "C97", "title": "Functions that define modules are found by the comments in front of them", "statement": "In a module definition file, a comment [ply module=\"name\"] or [ply extern=\"name\" provider=\"name\"] at file scope makes the function after it the one that defines that module or extern provider, under exactly these names; functions without such a comment are not registered. A command that cannot be applied is reported.", "quantifier": "all module definition files of any length, with any other comments and declarations between, all names and any white space in the commands; all sequences of comments and declarations, right or wrong, for the count of commands", "why_tests_cant": "the command is kept until some later declaration uses it up; which function it goes to, and whether a command vanishes, depends on everything between them", "anchors": ["repos/plywood/src/build/repo/ply-build-repo/ExtractModuleFunctions.cpp: InstantiatorHooks::gotMacroOrComment, InstantiatorHooks::onGotDeclaration, extractInstantiatorFunctions"]}
{"id": "C98", "title": "What has changed is built again, and nothing else", "statement": "The tool builds the module definitions of all repos if one of them was added, removed or changed since they were last built successfully, or if asked to, and otherwise not; errors in them are reported until they are corrected. The order in which files are found makes no difference. A build folder whose targets have changed has its build system generated again. Signatures are saved and read back without change.", "quantifier": "all 128-bit signatures, all hash functions, all lists of files in any order, all signatures saved before, with any outcome of the build; all lists of targets", "why_tests_cant": "a signature is a sum of hashes; that no carry, leading zero or order is lost concerns 2^128 values, and a wrong one shows only as something not built again", "anchors": ["repos/plywood/src/build/repo/ply-build-repo/RepoRegistry.cpp: parseSignatureString, signatureToString", "repos/plywood/src/build/repo/ply-build-repo/BuildInstantiatorDLLs.cpp: buildInstantiatorDLLs", "repos/plywood/src/build/folder/ply-build-folder/BuildFolder.cpp: currentBuildSystemSignature, isGenerated", "repos/plywood/src/runtime/ply-runtime/container/Int128.h: u128"]}

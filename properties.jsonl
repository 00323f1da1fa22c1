{"id": "C01", "title": "Packed decimal bytes are decoded to the number they were encoded from", "statement": "Writing a signed fixed-length decimal number to its packed (one nibble per digit) field bytes and decoding these bytes again yields the same sign, the same digits and the same decimal point position, and exactly (length+2)/2 bytes are used.", "quantifier": "every digit string of every declared length >= 1, every precision <= length, both signs", "why_tests_cant": "the digit count and parity of the length decide the nibble layout; tests sample a few lengths", "anchors": ["src/tool1cd/BinaryDecimalNumber.cpp: BinaryDecimalNumber(const void*,int,int,bool), write_to", "src/tool1cd/FieldType.cpp: NumericFieldType"]}
{"id": "C02", "title": "Text to numeric field to text keeps the numeric value", "statement": "For a decimal text that fits the declared length and precision, storing it in a numeric field and presenting the field again yields the canonical text of the same number; a text with too many integer digits saturates to all nines instead of wrapping.", "quantifier": "every decimal text with any number of integer and fraction digits, every declared length and precision", "why_tests_cant": "unbounded digit strings, saturation and truncation boundaries", "anchors": ["src/tool1cd/BinaryDecimalNumber.cpp: BinaryDecimalNumber(const string&,bool,int,int), get_presentation", "src/tool1cd/FieldType.cpp: NumericFieldType::get_binary_value, get_presentation"]}
{"id": "C03", "title": "Numeric index keys sort like the numbers", "statement": "Comparing the index sort keys of two numeric field values byte by byte gives the same order as comparing the two numbers.", "quantifier": "every pair of values (both signs, zero) of a numeric field of any length and precision", "why_tests_cant": "order preservation is a statement about all pairs of values", "anchors": ["src/tool1cd/FieldType.cpp: NumericFieldType::get_sort_key"]}
{"id": "C04", "title": "Dates survive the 7-byte packed form", "statement": "Packing a yyyyMMddhhmmss (or dd.MM.yyyy hh:mm:ss) text into a date field and rendering the field again gives the original text, and packed dates order like the moments they denote.", "quantifier": "every 14-digit date text and every pair of dates", "why_tests_cant": "10^14 values and all pairs of them", "anchors": ["src/tool1cd/BinaryDecimalNumber.cpp: BinaryDecimalDate", "src/tool1cd/Common.cpp: string1C_to_date, date_to_string1C, string_to_date, date_to_string"]}
{"id": "C05", "title": "Decoding a fixed-size value reads only its own bytes", "statement": "Decoding a date, number, GUID or string field value depends on and touches only the bytes of that field.", "quantifier": "every field type, length and record position", "why_tests_cant": "an over-read is invisible unless the field is the last one of a mapped buffer", "anchors": ["src/tool1cd/BinaryDecimalNumber.cpp", "src/tool1cd/FieldType.cpp: CommonFieldType::get_presentation, get_size"]}
{"id": "C06", "title": "GUID text forms are lossless", "statement": "Parsing the 1C text form (or the flat 32-digit form) of a GUID gives back the same 16 bytes, both text forms are injective, and a text of a length other than 32 or 36 is rejected.", "quantifier": "all 2^128 GUIDs and all texts", "why_tests_cant": "the byte permutation must be right for every position at once; domain is 2^128", "anchors": ["src/tool1cd/BinaryGuid.cpp", "src/tool1cd/BinaryGuid.h"]}
{"id": "C07", "title": "Base64 decoding inverts encoding for every line length", "statement": "Decoding the base64 text of a byte sequence yields that byte sequence, whatever line length the encoder was asked for, and characters outside the alphabet inserted anywhere in the text do not change the decoded bytes.", "quantifier": "every byte sequence, every line length, every insertion of noise characters", "why_tests_cant": "unbounded inputs, three length residues, unbounded interleavings of noise", "anchors": ["src/tool1cd/Base64.cpp: encodeblock, base64_encode, decodeblock, base64_decode"]}
{"id": "C08", "title": "XML escaping is safe and reversible", "statement": "The escaped text contains no raw <, >, quote or apostrophe and no & that does not start an entity, and decoding the five standard entities gives back the original text.", "quantifier": "every input text", "why_tests_cant": "correctness depends on the order of five sequential whole-string replacements over arbitrary interleavings of special characters", "anchors": ["src/tool1cd/Common.cpp: toXML", "src/tool1cd/SystemClasses/System.SysUtils.cpp: StringReplace"]}
{"id": "C09", "title": "Search-and-replace replaces exactly the non-overlapping left-to-right occurrences and terminates", "statement": "Replacing all occurrences of a non-empty pattern always terminates, removes the leftmost non-overlapping occurrences and keeps everything between them; replacing a pattern by itself is the identity; with an empty pattern it never terminates.", "quantifier": "every text, every pattern and replacement", "why_tests_cant": "termination and overlap handling over all strings (replacement may contain the pattern)", "anchors": ["src/tool1cd/SystemClasses/System.SysUtils.cpp: StringReplace"]}
{"id": "C10", "title": "Hex rendering is injective and hex parsing accepts exactly hex digits", "statement": "The hex dump of a byte sequence has two characters per byte and determines the bytes; a pair of characters is accepted as a byte exactly when both are hex digits, and then denotes their value.", "quantifier": "every byte sequence; every pair of characters", "why_tests_cant": "unbounded length", "anchors": ["src/tool1cd/Common.cpp: hexstring, two_hex_digits_to_byte, from_hex_digit"]}
{"id": "C11", "title": "Case-insensitive comparison is an equivalence", "statement": "Names compare equal case-insensitively in a reflexive, symmetric, transitive way, exactly when they agree after folding ASCII and Russian letters; folding keeps the encoded length and is idempotent, and lower- and upper-casing agree on which names are equal.", "quantifier": "every pair/triple of names without NUL characters", "why_tests_cant": "lookup tables keyed by folded names rely on these laws for all names", "anchors": ["src/tool1cd/SystemClasses/String.cpp: LowerCase, UpperCase, CompareIC, EqualIC, EndsWithIC"]}
{"id": "C12", "title": "UTF-16 field text converts to UTF-8 and back without loss", "statement": "Converting well-formed UTF-16LE text to UTF-8 and back gives the same bytes; ill-formed text is rejected instead of silently altered.", "quantifier": "every sequence of Unicode scalar values, every byte sequence for rejection", "why_tests_cant": "all 1.1 million scalar values in all sequences", "anchors": ["src/tool1cd/SystemClasses/System.SysUtils.cpp: TUcs2Encoding::toUtf8, fromUtf8", "src/tool1cd/SystemClasses/utf8/checked.h"]}
{"id": "C13", "title": "Container timestamps survive conversion to file times", "statement": "Converting a container timestamp to a file time and back gives the same timestamp; conversion of POSIX times to file times and back is the identity.", "quantifier": "every 64-bit timestamp in range", "why_tests_cant": "64-bit domain", "anchors": ["src/tool1cd/cfapi/V8Time.cpp", "src/tool1cd/SystemClasses/System.cpp: FileTime_to_POSIX, UnixTimeToFileTime"]}
{"id": "C14", "title": "A memory stream behaves as a growable byte array with a cursor", "statement": "After any sequence of writes, reads, seeks and resizes, a memory stream's contents, size and position are those of an abstract byte array: a write overlays at the cursor and zero-fills a gap, a read returns the bytes at the cursor clipped to the end, other bytes do not change.", "quantifier": "every finite sequence of operations with arbitrary data", "why_tests_cant": "histories are unbounded", "anchors": ["src/tool1cd/SystemClasses/TMemoryStream.cpp", "src/tool1cd/SystemClasses/TStream.cpp"]}
{"id": "C15", "title": "Copying between streams copies exactly the bytes requested", "statement": "Copying n bytes from a stream appends to the destination exactly the next min(n, remaining) bytes of the source and returns that number.", "quantifier": "every source contents, position and count", "why_tests_cant": "the boundary where nothing remains", "anchors": ["src/tool1cd/SystemClasses/TStream.cpp: CopyFrom, Read, Write, Seek"]}
{"id": "C16", "title": "Compression and decompression of streams is lossless", "statement": "Inflating what the deflate driver wrote gives back the source bytes, for every correct streaming compressor.", "quantifier": "every byte sequence of every length, every chunking by the underlying library", "why_tests_cant": "fails only at lengths that are multiples of the internal chunk size", "anchors": ["src/tool1cd/UZLib.cpp: ZDeflateStream, ZInflateStream"]}
{"id": "C17", "title": "The page cache is transparent", "statement": "Whatever sequence of page reads, page writes, cache clean-ups and flushes is executed, reading a page returns the bytes last written to it (or the file's bytes if never written).", "quantifier": "every finite sequence of cache operations, every clock behaviour", "why_tests_cant": "eviction depends on clock and history", "anchors": ["src/tool1cd/MemBlock.cpp"]}
{"id": "C18", "title": "Flush makes every modification durable, clean-up loses none", "statement": "After a flush the file holds exactly the logical contents of all pages; cleaning the cache never discards a modified page; dropping the cache without a flush leaves the file as of the last flush except for appended zero pages and the header page counter.", "quantifier": "every finite sequence of cache operations and every crash point", "why_tests_cant": "crash points and histories", "anchors": ["src/tool1cd/MemBlock.cpp: flush, garbage, delete_memblocks, MemBlock::create, MemBlock::write", "src/tool1cd/Class_1CD.cpp: flush"]}
{"id": "C19", "title": "Pages are appended one at a time and the recorded length follows", "statement": "Requesting the page right after the last one for writing grows the database by exactly one page and the length recorded in the header page is the new page count; requesting any page further away is rejected and changes nothing.", "quantifier": "every database size and page number, every sequence of requests", "why_tests_cant": "histories of allocations", "anchors": ["src/tool1cd/Class_1CD.cpp: get_block, get_block_for_write"]}
{"id": "C20", "title": "Reading a part of an 8.0-format object equals the slice of the whole", "statement": "For an object of the format used before 8.3.8, reading (start, length) returns bytes start..start+length of what reading the whole object returns, which is the concatenation of its data pages cut to the object's length.", "quantifier": "every object length, every allocation table, every start and length inside the object", "why_tests_cant": "page and table boundaries are combinatorial", "anchors": ["src/tool1cd/V8Object.cpp: get_data(), get_data(void*,uint64_t,uint64_t)"]}
{"id": "C21", "title": "Reading a part of an 8.3.8-format object equals the slice of the whole", "statement": "Same as for 8.0 but for 8.3.8 objects with zero or one allocation levels and any page size.", "quantifier": "every page size multiple of 4, both allocation levels, every object length, start and length inside", "why_tests_cant": "page size is a run-time parameter", "anchors": ["src/tool1cd/V8Object.cpp: get_data(), get_data(void*,uint64_t,uint64_t)"]}
{"id": "C22", "title": "Reading outside an object is refused", "statement": "A partial read whose range is not inside the object raises an error and returns no bytes.", "quantifier": "every object and range, whether or not the object is cached in memory", "why_tests_cant": "depends on hidden cache state", "anchors": ["src/tool1cd/V8Object.cpp: get_data(void*,uint64_t,uint64_t)"]}
{"id": "C23", "title": "Writing a range inside an object changes exactly that range", "statement": "After writing bytes into a range inside the object, reading the object gives the old contents with that range replaced; pages that do not belong to the object are unchanged.", "quantifier": "every object, range and data; both formats", "why_tests_cant": "all boundary combinations of pages and allocation tables", "anchors": ["src/tool1cd/V8Object.cpp: set_data"]}
{"id": "C24", "title": "The physical offset reported for an object byte is where that byte is", "statement": "The file offset reported for an offset inside an object is the position in the database file of the byte that reading the object at that offset returns.", "quantifier": "every object, offset, page size and file size", "why_tests_cant": "offsets beyond 4 GiB never appear in tests", "anchors": ["src/tool1cd/V8Object.cpp: get_fileoffset"]}
{"id": "C25", "title": "Growing or shrinking an object is memory safe and keeps the common prefix", "statement": "Changing the length of an object keeps the bytes below the smaller of both lengths and never writes outside its buffers.", "quantifier": "every old and new length, both formats", "why_tests_cant": "the out-of-bounds copy depends on the page count", "anchors": ["src/tool1cd/V8Object.cpp: set_len"]}
{"id": "C26", "title": "The free-page list hands out each free page once", "statement": "Freeing and allocating pages behaves as a stack of free pages; a page that is in use is never handed out as long as no page is freed twice; allocation from an empty list appends a fresh page.", "quantifier": "every sequence of free/allocate operations", "why_tests_cant": "histories of unbounded length crossing free-list page boundaries", "anchors": ["src/tool1cd/V8Object.cpp: set_block_as_free, get_free_block"]}
{"id": "C27", "title": "Deleting an object returns each of its pages to the free list exactly once", "statement": "After an object is deleted every page it occupied is on the free list exactly once.", "quantifier": "every object size", "why_tests_cant": "depends on the number of allocation pages", "anchors": ["src/tool1cd/Class_1CD.cpp: delete_object"]}
{"id": "C28", "title": "Object and record versions only move forward", "statement": "Each record version handed out by an object is larger than the previous one, and the object's stored version is advanced at most once per opening, to exactly the value reported as its current version.", "quantifier": "every sequence of version requests and writes", "why_tests_cant": "sequences are unbounded", "anchors": ["src/tool1cd/V8Object.cpp: get_version_rec_and_increase, write_new_version, get_version, get_current_version"]}
{"id": "C29", "title": "Saving an object to a file writes exactly the object's bytes", "statement": "The saved file has exactly the object's length and contents.", "quantifier": "every object length and page size", "why_tests_cant": "last-chunk boundary", "anchors": ["src/tool1cd/V8Object.cpp: savetofile"]}
{"id": "C30", "title": "A stored blob reads back identically", "statement": "Storing a byte stream as a blob and reading it back with the returned start block and length yields the same bytes.", "quantifier": "every blob content and length, every prior state of the blob file (free chain or append)", "why_tests_cant": "chunk boundaries at 250 bytes and every free-chain shape", "anchors": ["src/tool1cd/Table.cpp: write_blob_record(TStream*), write_blob_record(char*,uint32_t), readBlob", "src/tool1cd/V8Object.cpp: readBlob"]}
{"id": "C31", "title": "Storing and deleting blobs does not disturb other blobs", "statement": "Storing or deleting a blob leaves every other stored blob readable with the same contents; deleting returns exactly its blocks to the free chain for reuse.", "quantifier": "every set of live blobs and every sequence of store/delete operations", "why_tests_cant": "aliasing across histories", "anchors": ["src/tool1cd/Table.cpp: delete_blob_record, write_blob_record"]}
{"id": "C32", "title": "Reading a blob either yields exactly the stated length or reports an error", "statement": "Reading a blob chain with an explicit length terminates and either returns exactly that many bytes or raises an error, whatever the bytes of the blob file are.", "quantifier": "every byte content of the blob file, start block and length", "why_tests_cant": "corrupt chains: cycles, bad lengths, out-of-range links", "anchors": ["src/tool1cd/V8Object.cpp: readBlob"]}
{"id": "C33", "title": "Fields of a record do not overlap and fit in the record", "statement": "The computed field offsets partition the record after its removal flag: version fields first, then the others in order, no two fields overlap and the record length covers all of them and is at least 5.", "quantifier": "every list of field descriptions", "why_tests_cant": "field lists are unbounded", "anchors": ["src/tool1cd/Table.cpp: init", "src/tool1cd/FieldType.cpp: get_size", "src/tool1cd/Field.cpp: get_size"]}
{"id": "C34", "title": "Setting one field of a record leaves the others unchanged", "statement": "After storing a value in a field, reading that field gives the value, it is not null, and every other field reads as before.", "quantifier": "every record layout, field and value", "why_tests_cant": "depends on neighbour layout", "anchors": ["src/tool1cd/TableRecord.cpp: set_data, set, is_null_value, get_raw, get_data"]}
{"id": "C35", "title": "Scanning a table visits exactly its live records, once each, in physical order", "statement": "Iterating a table yields every physical record not marked removed exactly once in increasing order; the record index built for unindexed tables lists the same records; a record number outside the table is rejected.", "quantifier": "every table contents", "why_tests_cant": "arbitrary patterns of removed records", "anchors": ["src/tool1cd/TableIterator.cpp: TableIterator", "src/tool1cd/Table.cpp: fill_records_index, get_record"]}
{"id": "C36", "title": "Field and index lookup by name is case-insensitive and finds the first match", "statement": "Looking up a field or index by name returns the first one whose name is equal ignoring case and fails only if there is none.", "quantifier": "every field list and name", "why_tests_cant": "all lists and names", "anchors": ["src/tool1cd/Table.cpp: find_field, get_field, find_index, get_index"]}
{"id": "C37", "title": "Record editing states are consistent", "statement": "In every sequence of edit operations, cancelling restores the pre-edit view of every record, a value set for a field is what the edited record shows, restoring it shows the stored value, and a record is listed as changed exactly when some field differs or it was added or deleted.", "quantifier": "every sequence of edit operations", "why_tests_cant": "state machine over unbounded histories", "anchors": ["src/tool1cd/Table.cpp: begin_edit, set_edit_value, restore_edit_value, set_rec_type, get_rec_type, get_edit_record, cancel_edit"]}
{"id": "C38", "title": "Packed index leaf pages decode to the entries that were packed", "statement": "When a list of index entries fits a leaf page, unpacking the packed page gives back the same record numbers and keys; when it does not fit the packer says so.", "quantifier": "every list of entries, every key length, page size and record-number width", "why_tests_cant": "prefix/suffix compression interacts with every key pattern", "anchors": ["src/tool1cd/Index.cpp: pack_leafpage, unpack_leafpage"]}
{"id": "C39", "title": "Walking an index lists every entry of its leaf chain in order", "statement": "The list of record numbers produced for an index is the concatenation, in chain order, of the record numbers stored in its leaf pages, starting from the leftmost leaf.", "quantifier": "every index tree shape", "why_tests_cant": "tree depth and chain length unbounded", "anchors": ["src/tool1cd/Index.cpp: create_recordsindex"]}
{"id": "C40", "title": "Iterating in index order is safe and stops at the first dangling entry", "statement": "Index-ordered iteration yields records in index order and never addresses a record number beyond the table.", "quantifier": "every index listing and table size", "why_tests_cant": "corrupt indexes", "anchors": ["src/tool1cd/TableIterator.cpp: IndexedTableIterator"]}
{"id": "C41", "title": "Serialised bracket trees parse back to themselves", "statement": "Parsing the text produced for a tree gives a tree with the same nesting, node types and values.", "quantifier": "every tree whose leaves carry well-formed values", "why_tests_cant": "unbounded nesting, strings with quotes, delimiters, brackets and line breaks", "anchors": ["src/tool1cd/Parse_tree.cpp: outtext, parseText, get_treeFromV8file"]}
{"id": "C42", "title": "The bracket parser accepts only balanced input and never leaves the tree", "statement": "On every input the parser terminates; it accepts only if brackets outside strings are balanced, and reports an error otherwise, without ever moving above the root.", "quantifier": "every input text", "why_tests_cant": "all inputs including malformed ones", "anchors": ["src/tool1cd/Parse_tree.cpp: parseText, parse_flow"]}
{"id": "C43", "title": "Value classification is a function of the text alone and round-trips strings", "statement": "Every unquoted token gets exactly one type by the documented precedence; quoted strings with any characters are recovered exactly by un-doubling quotes.", "quantifier": "every token and every string", "why_tests_cant": "all texts", "anchors": ["src/tool1cd/Parse_tree.cpp: classification_value, outtext"]}
{"id": "C44", "title": "Container block headers are lossless", "statement": "Writing the hexadecimal sizes and next-block address of a container block header and reading them back yields the same numbers in exactly 31 bytes.", "quantifier": "all 32-bit values of the three numbers", "why_tests_cant": "2^96 combinations", "anchors": ["src/tool1cd/cfapi/APIcfBase.cpp: stBlockHeader"]}
{"id": "C45", "title": "Data written to a container block chain reads back identically", "statement": "Writing a non-empty stream as a new block and reading the block back yields the same bytes; every other block of the container is unchanged.", "quantifier": "every container contents and stream", "why_tests_cant": "lengths around the page size, chain shapes", "anchors": ["src/tool1cd/cfapi/V8Catalog.cpp: write_block, write_datablock, read_block, read_datablock, get_nextblock"]}
{"id": "C46", "title": "Rewriting a container entry does not corrupt its neighbours", "statement": "Rewriting the data of an existing block with data of any size keeps all other blocks readable unchanged.", "quantifier": "every chain shape and new size including zero", "why_tests_cant": "page-size zero blocks and chain growth/shrink", "anchors": ["src/tool1cd/cfapi/V8Catalog.cpp: write_block, free_block"]}
{"id": "C47", "title": "Container entries are found by case-insensitive name and creation is idempotent", "statement": "After creating an entry, looking its name up in any letter case gives that entry; creating it again gives the same entry; after deletion the name is absent; other entries are unaffected.", "quantifier": "every sequence of create/get/delete", "why_tests_cant": "histories of unbounded length", "anchors": ["src/tool1cd/cfapi/V8Catalog.cpp: createFile, get_file, delete_file"]}
{"id": "C48", "title": "Container entry headers round-trip", "statement": "Closing an entry and reopening the container yields the same name, creation time and modification time.", "quantifier": "every name and timestamp", "why_tests_cant": "all names/times", "anchors": ["src/tool1cd/cfapi/V8File.cpp: close", "src/tool1cd/cfapi/V8Catalog.cpp: initialize"]}
{"id": "C49", "title": "A file split into parts is assembled in part order from live records", "statement": "A stored file's content is the concatenation of its parts 0..max in order, each taken from the last live record for that part; removed records and records with empty names do not contribute.", "quantifier": "every table contents", "why_tests_cant": "arbitrary interleavings of parts, removed rows and names", "anchors": ["src/tool1cd/TableFiles.cpp: TableFiles", "src/tool1cd/ConfigStorage.cpp: ContainerFile::open"]}
{"id": "C50", "title": "The newest applicable dynamic update of each configuration file is used", "statement": "For each configuration file name, the stored variant selected is the one with the greatest position in the dynamic update list, a variant marked new losing to listed ones.", "quantifier": "every set of stored names and every update list", "why_tests_cant": "all combinations of variants", "anchors": ["src/tool1cd/ConfigStorage.cpp: ConfigStorageTableConfig"]}
{"id": "C51", "title": "Paths inside a configuration container address the named directory and file", "statement": "Reading, writing or testing the path dir\\file addresses entry file in the directory entry named dir.", "quantifier": "every path", "why_tests_cant": "all paths; off-by-one in splitting", "anchors": ["src/tool1cd/ConfigStorage.cpp: ConfigStorageCFFile::readfile, writefile, fileexists"]}
{"id": "C52", "title": "Exporting version N of a repository picks, for each object, its newest state not after N", "statement": "For every object the exported data is that of the last history record with version number at most N that carries data, and objects whose last such record is a removal are omitted.", "quantifier": "every history table sorted by object and version, every N", "why_tests_cant": "arbitrary histories", "anchors": ["src/tool1cd/save_depot_config.cpp: T_1CD::save_depot_config"]}
{"id": "C53", "title": "Relative repository versions are resolved from the newest", "statement": "Version 0 means the newest version, -k the k-th before it, a positive number itself; asking further back than the first version is an error.", "quantifier": "every version table and request", "why_tests_cant": "all requests including boundaries", "anchors": ["src/tool1cd/Class_1CD.cpp: get_ver_depot_config"]}
{"id": "C54", "title": "A packed object is found wherever it is stored", "statement": "An object hash that occurs in some pack is served with that pack's data; otherwise the loose object file objects/aa/bbcc.. is used; otherwise it is reported missing.", "quantifier": "every set of packs and every hash", "why_tests_cant": "lookup precedence over all contents", "anchors": ["src/tool1cd/PackDirectory.cpp: get_data", "src/tool1cd/Packdata.cpp: get_data"]}
{"id": "C55", "title": "Only consistent database files are opened", "statement": "Opening succeeds only for a file with the 1CD signature, a known version, a size that is a multiple of the page size and a header length equal to the number of pages; format versions 8.0 are always opened read-only.", "quantifier": "every byte content of the header and every file size", "why_tests_cant": "all header contents", "anchors": ["src/tool1cd/Class_1CD.cpp: open"]}
{"id": "C56", "title": "Protected user data is unmasked exactly", "statement": "Unmasking a masked user record with its key inverts the masking for every key length and content.", "quantifier": "every mask and content", "why_tests_cant": "all mask lengths (0..255)", "anchors": ["src/tool1cd/Field.cpp: save_blob_to_file"]}
{"id": "C57", "title": "Every command-line switch consumes exactly its parameters", "statement": "Parsing an argument list yields the recognised switches in order, each with the parameters that follow it, and the first other argument as the database file; switch names are case-insensitive; a switch with missing parameters is reported.", "quantifier": "every argument list", "why_tests_cant": "unbounded argument lists", "anchors": ["src/ctool1cd/ParseCommandLine.cpp: CommandParse"]}
{"id": "C58", "title": "Removing quotes from a parameter terminates and strips only enclosing quotes", "statement": "Dequoting any parameter terminates and returns the parameter without its enclosing quotes.", "quantifier": "every parameter text", "why_tests_cant": "non-termination on particular shapes", "anchors": ["src/ctool1cd/ParseCommandLine.cpp: dequote"]}
{"id": "C59", "title": "Row numbers name live records once, then the added ones", "statement": "While a table is edited, row r (counted from 1) is the r-th record of the current order, the rows after the last one are the added records in order, different rows are different records, and a row number outside this range is refused.", "quantifier": "every table, order of records, number of added records and row number", "why_tests_cant": "all tables and row numbers", "anchors": ["src/tool1cd/Table.cpp: get_phys_numrec"]}
{"id": "C60", "title": "Adding an entry to an index page keeps every entry, in order", "statement": "Writing an index record into a leaf page puts it after all smaller keys and before the others, loses no entry, keeps the page's links, refuses a key already in a primary index, and when the page is full divides the entries over two linked pages.", "quantifier": "every leaf page with keys in order, every new key and record number, every page size", "why_tests_cant": "page contents, key lengths and fill levels are unbounded", "anchors": ["src/tool1cd/Index.cpp: write_index_record, pack_leafpage, unpack_leafpage"]}
{"id": "C61", "title": "Removing an entry from an index page removes exactly that entry", "statement": "Deleting an index record from a leaf page removes the entry with that key and record number and no other; if there is none nothing changes; the page keeps its links and can be read again.", "quantifier": "every leaf page with keys in order, every key and record number", "why_tests_cant": "page contents, key lengths and fill levels are unbounded", "anchors": ["src/tool1cd/Index.cpp: delete_index_record, pack_leafpage"]}
{"id": "C62", "title": "A version range on the command line means the versions written", "statement": "The parameter a:b of the partial depot export means the range from version a to version b, and a single number means that version alone; zero and negative numbers count back from the newest.", "quantifier": "every pair of whole numbers", "why_tests_cant": "all numbers and lengths", "anchors": ["src/ctool1cd/App.cpp: save_depot_config_part", "src/tool1cd/SystemClasses/String.cpp: ToIntDef"]}
{"id": "C63", "title": "A list of name patterns selects exactly the matching tables", "statement": "The list given to -ex, -eb or -ib selects exactly the tables whose name matches one of its patterns (separated by commas, semicolons or spaces), where * stands for any text and ? for one character and case does not matter; an empty list is reported.", "quantifier": "every list and every set of table names", "why_tests_cant": "unbounded patterns and names", "anchors": ["src/ctool1cd/App.cpp: export_to_xml, export_to_binary, import_from_binary", "src/tool1cd/SystemClasses/String.cpp: TStringList::SetText"]}
{"id": "C64", "title": "The tables and the kind of a database are those its root object names", "statement": "Opening a database reads exactly the tables listed in the root object, in order, and its locale; a database with any table of an information base (or else of a configuration depot) is opened only if it has all of them, and is then an information base (a depot).", "quantifier": "every root object and every set of table names", "why_tests_cant": "all lists of tables", "anchors": ["src/tool1cd/Class_1CD.cpp: open"]}
{"id": "C65", "title": "Exporting a stored value unwraps its content", "statement": "Exporting a field of a user table with unpacking writes exactly the content bytes of a stored value, packed or not, and writes any other blob unchanged.", "quantifier": "every blob, of any size", "why_tests_cant": "all headers, contents and sizes, including empty content and blobs above the size at which temporary files are used", "anchors": ["src/tool1cd/Field.cpp: Field::save_blob_to_file"]}
{"id": "C66", "title": "A container keeps its named contents across any history", "statement": "After any history of storing contents under names, removing names, flushing and reopening, looking a name up (in any case of letters) gives the content stored last under it, or nothing if there is none, and the entries are listed in the order in which they were first stored.", "quantifier": "every history of any length, all names and contents", "why_tests_cant": "unbounded histories; blocks are reused, moved and chained differently in each", "anchors": ["src/tool1cd/cfapi/V8Catalog.cpp: V8Catalog::initialize, createFile, get_file, Flush", "src/tool1cd/cfapi/V8File.cpp: V8File::write, Flush, delete_file, Open"]}
{"id": "C67", "title": "Asking whether a file is a container is answered", "statement": "The test whether a stream is a container gives an answer for every content, and the answer is yes for the stream of every flushed container.", "quantifier": "every stream content; every history of a container", "why_tests_cant": "all byte strings and all histories", "anchors": ["src/tool1cd/cfapi/V8Catalog.cpp: V8Catalog::is_catalog", "src/tool1cd/cfapi/V8File.cpp: V8File::is_catalog"]}
{"id": "C68", "title": "The text shown for a value is that of the value", "statement": "The text given for a field of a record is determined by the bytes of that field alone: a null is shown as nothing or {NULL}; booleans, numbers, dates, bytes, identifiers, strings and versions are shown as the text of the value; nothing outside the field is read.", "quantifier": "every record, field position, type, length and value", "why_tests_cant": "all records and all values of all types; reads beyond the field depend on the neighbouring memory", "anchors": ["src/tool1cd/Field.cpp: Field::get_presentation", "src/tool1cd/FieldType.cpp: get_presentation of all types", "src/tool1cd/TableRecord.cpp: TableRecord::get_string"]}
{"id": "C69", "title": "A value entered as text is the value shown", "statement": "Entering a text for a field produces exactly the bytes of the field, and showing that field then gives the text entered (in canonical form); entering the text shown for a value leaves the value as it was.", "quantifier": "every field type, length and text", "why_tests_cant": "all texts and values", "anchors": ["src/tool1cd/Field.cpp: Field::get_binary_value", "src/tool1cd/FieldType.cpp: get_binary_value of all types"]}
{"id": "C70", "title": "The XML form of a value can be read back", "statement": "The XML form of a value, read with the usual rules (entities, Base64, ISO dates), gives the value; it contains only characters XML allows.", "quantifier": "every record, type and value, including large values", "why_tests_cant": "all values", "anchors": ["src/tool1cd/Field.cpp: Field::get_XML_presentation", "src/tool1cd/FieldType.cpp: get_XML_presentation of all types", "src/tool1cd/TableRecord.cpp: TableRecord::get_xml_string"]}
{"id": "C71", "title": "Index keys of records order the records by their indexed fields", "statement": "The key computed for a record under an index is made of the values of the indexed fields, in order, so that keys compare as the lists of values do; computing it reads only the record and writes only the key buffer.", "quantifier": "every record, index definition and value", "why_tests_cant": "all pairs of records", "anchors": ["src/tool1cd/Index.cpp: Index::calcRecordIndex", "src/tool1cd/Field.cpp: Field::get_sort_key", "src/tool1cd/FieldType.cpp: get_sort_key of all types"]}
{"id": "C72", "title": "Replacing the contents of an internal file", "statement": "After the whole contents of an internal file are replaced by a buffer or a stream, the file has the length of the new contents and consists of exactly their bytes, whatever the old contents were; every other file of the database is unchanged. A read-only database and the free-page file refuse.", "quantifier": "every database state, old length, new contents, format and state of the page cache", "why_tests_cant": "all lengths and all histories of the cache and the free list", "anchors": ["src/tool1cd/V8Object.cpp: V8Object::set_data(const void*, uint64_t)", "src/tool1cd/V8Object.cpp: V8Object::set_data(TStream*)", "src/tool1cd/V8Object.cpp: V8Object::set_len"]}
{"id": "C73", "title": "Checking and repairing the pages of a table", "statement": "Repairing the list of pages of a table's records accepts a page exactly if all its bytes are possible at their places in records with the table's fields. A table whose records are all valid is left as it is; a page number that is wrong is replaced exactly if one page of the database, and no other, can stand there, and then the table has its records back. No other page changes.", "quantifier": "every table description, every contents of the records, every database and every set of damaged page numbers", "why_tests_cant": "all field layouts, all contents of pages and all combinations of damaged page numbers", "anchors": ["src/tool1cd/Table.cpp: Table::get_record_template_test", "src/tool1cd/Class_1CD.cpp: T_1CD::restore_DATA_allocation_table", "src/tool1cd/Class_1CD.cpp: T_1CD::test_block_by_template", "src/tool1cd/Constants.h: NUM_TEST_TEMPLATE, DATE1_TEST_TEMPLATE ..."]}
{"id": "C74", "title": "Ending an editing session stores exactly the changes made", "statement": "When a session of edits to a table ends, a scan of the table shows the records it had, without those marked for deletion, with the changes made and with the records added; the values in the blob file that belong to other records are untouched and those of deleted records are freed; the place of a deleted record is used again.", "quantifier": "every table, every session of edits and every order of marks", "why_tests_cant": "unbounded histories over unbounded tables; what is written depends on the addresses of objects, which a test cannot control", "anchors": ["src/tool1cd/Table.cpp: Table::end_edit", "src/tool1cd/Table.cpp: Table::delete_record, Table::delete_data_record, Table::delete_index_record", "src/tool1cd/Table.cpp: Table::insert_record, Table::write_data_record, Table::write_index_record", "src/tool1cd/Table.cpp: Table::update_record"]}
{"id": "C75", "title": "Removing an entry from an index", "statement": "Removing a record's entry from an index removes exactly that entry: a walk afterwards gives all other records in the order of their keys, the index is again well formed with the same root, nothing outside of its pages is changed, and pages it no longer needs are put on the list of free pages. An entry that is not in the index is not removed. Removing and adding go on working afterwards.", "quantifier": "every index of any depth and width, every key and record number, every list of free pages", "why_tests_cant": "all shapes of trees, all positions of the entry and all combinations of emptied pages", "anchors": ["src/tool1cd/Index.cpp: Index::delete_index, Index::delete_index_record", "src/tool1cd/Index.cpp: Index::get_numrec, Index::create_recordsindex"]}
{"id": "C76", "title": "Adding an entry to an index", "statement": "Adding a record's entry to an index adds exactly that entry in the place of its key: a walk afterwards gives the records in the order of their keys, the index is again well formed, every entry can still be found and removed, and nothing outside of its pages is changed. Full pages are split.", "quantifier": "every index of any depth and width, every key and record number", "why_tests_cant": "all shapes of trees, all positions of the key and all fillings of pages", "anchors": ["src/tool1cd/Index.cpp: Index::write_index, Index::write_index_record", "src/tool1cd/Index.h: LeafPageHeader, BranchPageHeader"]}
{"id": "C77", "title": "Opening a configuration stored by hashes", "statement": "Opening a configuration whose files are stored under the hashes of their contents gives, for every name in its list of files and in any case, the stored file of the hash listed for this name, and nothing for other names. A configuration whose list or whose files are missing is refused.", "quantifier": "every list of names and hashes, every table of stored files, every name asked for", "why_tests_cant": "all lists, all orders of hashes of all lengths", "anchors": ["src/tool1cd/ConfigStorage.cpp: ConfigStorageTableConfigCas"]}
{"id": "C78", "title": "Opening a configuration stored by hashes with changes", "statement": "Opening such a configuration together with the files saved for it by its editor gives the saved file for every name that has one and the stored file of the listed hash for every other; files saved for other configurations are not touched.", "quantifier": "every list of names and hashes, every table of stored and of saved files", "why_tests_cant": "all lists and all sets of saved files", "anchors": ["src/tool1cd/ConfigStorage.cpp: ConfigStorageTableConfigCasSave"]}
{"id": "C79", "title": "Opening the configuration being edited", "statement": "The configuration being edited consists of the files its editor has saved and of the stored files that are neither saved nor listed as deleted, each under its own name; of a stored file the variant for the next start or of the latest update is taken. Malformed lists of identifiers are refused.", "quantifier": "every table of stored and of saved files, every list of updates and of deleted files", "why_tests_cant": "all names, lists and combinations of variants", "anchors": ["src/tool1cd/ConfigStorage.cpp: ConfigStorageTableConfigSave, parse_dynamically_updated_tree"]}
{"id": "C80", "title": "Opening and closing a file of a configuration", "statement": "Whatever was opened and closed before, opening a file of a configuration gives its whole contents, inflated if files of this name are packed, from the beginning; opening it raw gives the stored bytes; a file that cannot be read is reported each time. Closing frees every stream once.", "quantifier": "every history of opening, raw opening and closing, every file and name, every failure of reading", "why_tests_cant": "all histories and failure points", "anchors": ["src/tool1cd/ConfigStorage.cpp: ContainerFile::open, ContainerFile::ropen, ContainerFile::close, ContainerFile::isPacked"]}
{"id": "C81", "title": "Exporting a table as XML", "statement": "Whoever reads the document exported for a table gets its name, the name, type, length, precision and nullability of every field, and every record of the table once, in the order of its primary index if there is one, with the value of every field, null values apart from all others. Blobs exported to files are put in the directory of the document, each under a name of its own.", "quantifier": "every table, with every set of fields, indexes, records and values", "why_tests_cant": "all tables and values, and memory that is not initialised", "anchors": ["src/tool1cd/Table.cpp: Table::export_to_xml, Table::get_file_name_for_record", "src/ctool1cd/App.cpp: export_all_to_xml"]}
{"id": "C82", "title": "Exporting what changed between two versions of a depot", "statement": "Exporting the changes of a configuration depot from one version to another, given in either order, writes for every object with a record in between that is not removed the contents of its last data, unless they are what they were before, and the external files of that record, each with the contents of the newest record in between with the same name and identifier; it lists what was there before and is removed. Versions that are not in the depot are refused.", "quantifier": "every depot, every pair of versions, every history of objects and external files", "why_tests_cant": "all histories, versions and stores of data", "anchors": ["src/tool1cd/save_part_depot_config.cpp: T_1CD::save_part_depot_config"]}
{"id": "C83", "title": "Exporting the files of a table and importing them", "statement": "Exporting a table into a folder saves every internal file it has with exactly its contents and its versions; importing that folder into a table of any database gives each of its internal files exactly the exported contents and versions, creates the files it does not have and names their pages in its description, and changes nothing else in the database.", "quantifier": "every source and destination database, every contents, every combination of present and missing files", "why_tests_cant": "all contents, sizes and states of both databases", "anchors": ["src/tool1cd/Table.cpp: Table::export_table, Table::import_table", "src/tool1cd/V8Object.cpp: V8Object::V8Object, V8Object::set_data"]}
{"id": "C84", "title": "Saving a whole configuration into a container file", "statement": "Saving a configuration of the database into a file gives a container whose entries are exactly the files of the configuration, each with its name, its times of creation and modification and its stored bytes, whatever the file held before; opening the container again finds every file under its name, in any case of letters, and nothing else.", "quantifier": "every configuration (any number of files, names, contents, times), every earlier state of the target file, every history of opening and closing the files before", "why_tests_cant": "all configurations and contents; what the target held before", "anchors": ["src/tool1cd/ConfigStorage.cpp: ConfigStorageTable::save_config, ContainerFile::ropen", "src/tool1cd/cfapi/V8Catalog.cpp: V8Catalog::V8Catalog, V8Catalog::~V8Catalog, V8Catalog::createFile", "src/tool1cd/cfapi/V8File.cpp: V8File::write_and_close, V8File::close"]}
{"id": "C85", "title": "Listing and saving the configurations of vendors", "statement": "The list of vendor configurations of a database has one entry for each file of the configuration that holds one (the files of the configuration being edited first), with the name, vendor and version that its metadata give, in both formats of containers, however often the list is asked for; saving all of them gives for each one a file with its whole container unpacked, and a failure is reported.", "quantifier": "every set of configuration files, every container contents and metadata document, every packing of the file, every sequence of requests and every earlier state of the directory saved into", "why_tests_cant": "all metadata documents and containers; which of several files is damaged; collisions of names", "anchors": ["src/tool1cd/SupplierConfigBuilder.cpp: SupplierConfigBuilder::create, build_supplier_config, get_version", "src/tool1cd/SupplierConfig.cpp: SupplierConfig::save_to_file", "src/tool1cd/Class_1CD.cpp: T_1CD::find_supplier_configs, T_1CD::supplier_configs", "src/ctool1cd/App.cpp: App::save_vendors_configs", "src/tool1cd/cfapi/V8File.cpp: get_tree"]}
{"id": "C86", "title": "Running the program: exit status, messages, and the files it touches", "statement": "Without commands, or asked for help, the program opens nothing and gives status 0; without a database, with a missing one or one that cannot be opened it gives the documented status and says why. Otherwise the commands are executed in their order, each once, an exception in one does not keep the others from running, and the status tells whether an error was reported. With a log file all messages of the run go there and only there; with -nv there are none on the console. A run changes no file but the database and those its commands name: a configuration goes to the .cf file given or under its default name into the directory given. The file of table sizes has one line for each table with its name, number of records and lengths.", "quantifier": "every command line, every database and library behaviour (exceptions, messages), every state of the file system", "why_tests_cant": "all command sequences and failures at each; all paths; all table sizes", "anchors": ["src/ctool1cd/App.cpp: App::Run, App::save_config, App::save_configsave, App::save_vendors_configs, App::save_all_configs, App::save_depot_config, App::save_depot_config_part, App::save_tables_sizes", "src/ctool1cd/cTool_1CD_Main.cpp: main", "src/tool1cd/Messenger.cpp: Messenger::AddDetailedMessage, Messenger::setlogfile", "src/tool1cd/Common.cpp: directory_exists"]}
{"id": "C87", "title": "Finding and saving lost objects", "statement": "Searching for lost objects reports exactly the objects of the database that no open object refers to, each once; saving them writes each one, whole, to its own file in the given directory, changes no other file, and damage to one of them does not keep the others from being saved; in every format of the database.", "quantifier": "every database, every set of open objects (also of other databases open in the process), every state of the directory, every damage to an object", "why_tests_cant": "all page contents and all sets of open objects; damage at any place", "anchors": ["src/tool1cd/Class_1CD.cpp: T_1CD::find_lost_objects, T_1CD::find_and_save_lost_objects", "src/tool1cd/V8Object.cpp: V8Object::init, V8Object::savetofile, V8Object::get_first, V8Object::get_next"]}
{"id": "C88", "title": "Taking tables off the list of tables and putting lost ones back", "statement": "Deleting a table takes it, and no other table, off the list of tables in the file and in memory, gives the pages of its description, data, blobs and index back exactly once, and changes no page of any other object; where the database may not be changed, nothing is changed. Looking for lost tables puts exactly the lost tables onto the list, after the tables that are there, and a table that was deleted stays deleted.", "quantifier": "every database, every table, every length of its files, every set of lost objects", "why_tests_cant": "all layouts of pages, all lengths, all lists of tables and all histories of the free-page list", "anchors": ["src/tool1cd/Class_1CD.cpp: T_1CD::delete_table, T_1CD::delete_object, T_1CD::find_and_create_lost_tables", "src/tool1cd/V8Object.cpp: V8Object::set_data, V8Object::get_data, V8Object::set_block_as_free"]}
{"id": "C89", "title": "Creating a table from a folder", "statement": "Creating a table from a folder to which a table was exported puts a table with that name and those contents onto the list of tables, in place of any table of that name; when that cannot be done, the call fails and the tables stay as they were.", "quantifier": "every folder, every database and every list of tables", "why_tests_cant": "all contents of folders and databases; the outcome depends on a variable that has no value", "anchors": ["src/tool1cd/Class_1CD.cpp: T_1CD::create_table, T_1CD::delete_table", "src/tool1cd/Table.cpp: Table::export_table", "src/tool1cd/V8Object.cpp: V8Object::set_data"]}
{"id": "C90", "title": "The file a depot version is saved into", "statement": "Saving a version of a configuration depot into a file gives a configuration that can be opened: it holds exactly the objects of the version and their external data under their names, with a list of their versions that names each of them, a root and a version of the structure; a valid snapshot of the version is used as it is, and a damaged one never; when something cannot be read, saving fails and the file that was there before stays.", "quantifier": "every depot, every version, every snapshot and every file that was there before", "why_tests_cant": "all histories of a depot, all names and contents, and every damage of a snapshot", "anchors": ["src/tool1cd/save_depot_config.cpp: T_1CD::save_depot_config, T_1CD::try_save_snapshot, serialize_version", "src/tool1cd/Class_1CD.cpp: T_1CD::get_depot_version", "src/tool1cd/V8Catalog.cpp: V8Catalog::createFile"]}
{"id": "C91", "title": "Opening a table", "statement": "A table opened from its description is what the description says: name, fields with their types and places in a record, indexes with their fields and the pages where they begin, number of records, and the files named; a description that is not of the right form, or does not fit the files, is refused with an exception, and no description makes opening the table undefined.", "quantifier": "every text of a description and all contents of the files it names", "why_tests_cant": "all descriptions, well-formed or not, and all sizes of the files", "anchors": ["src/tool1cd/Table.cpp: Table::init", "src/tool1cd/Index.cpp: Index::index_from_tree, Index::get_length", "src/tool1cd/Field.cpp: Field::field_from_tree"]}
{"id": "C92", "title": "Checksums of snapshots", "statement": "The checksum computed for a stream is the CRC-32 of all its contents, wherever the stream is positioned and however long it is; contents that differ only within a run of 32 bits have different checksums, so a snapshot of a depot version damaged in up to four neighbouring bytes is never used.", "quantifier": "all contents, positions and damages of that kind", "why_tests_cant": "contents of any length, changed at any place in any way", "anchors": ["src/tool1cd/CRC32.cpp: _crc32", "src/tool1cd/save_depot_config.cpp: try_save_snapshot"]}
{"id": "C93", "title": "Streams over a file of a container", "statement": "Any number of streams opened on the same file of a container, used in any order and mixed with reading and writing the file directly, are cursors over one array of bytes: a read returns the bytes at the stream's position and fewer only at the end, a write replaces them or extends the file and is seen by every other stream, and seeking moves only that stream and never leaves the file.", "quantifier": "all contents below 2 GiB, numbers of streams and histories of calls", "why_tests_cant": "all interleavings of calls on several streams", "anchors": ["src/tool1cd/cfapi/TV8FileStream.cpp: TV8FileStream", "src/tool1cd/cfapi/V8File.cpp: V8File::read, V8File::write, V8File::get_stream, V8File::~V8File"]}
{"id": "C94", "title": "Streams over named files", "statement": "A stream over a file, opened in any mode that allows the operations asked for, reads and writes the file's bytes at its position; it may be closed and used again, and closed and destroyed, at any time; a file the user may read can be read. Saving an entry of a container, or all of them, to files leaves their contents there and returns.", "quantifier": "all contents, access rights and histories of reading, writing, seeking and closing", "why_tests_cant": "histories of any length over files of any size and rights", "anchors": ["src/tool1cd/SystemClasses/TFileStream.cpp: TFileStream", "src/tool1cd/SystemClasses/TStream.cpp: TWrapperStream", "src/tool1cd/cfapi/V8File.cpp: save_to_file", "src/tool1cd/cfapi/V8Catalog.cpp: SaveToDir", "src/tool1cd/PackDirectory.cpp: get_data"]}
{"id": "C95", "title": "Containers inside containers keep their contents", "statement": "A user who makes containers inside entries of containers, to any depth, stores and removes contents at the ends of paths, flushes, and closes and opens everything again, finds at the end of every path the content stored last there, or nothing if there is none, and in every container the names that are in it, in the order in which they came in.", "quantifier": "all trees of names, all contents that are not empty, and all histories of storing, removing, flushing and reopening", "why_tests_cant": "histories of any length over trees of any depth; what inner containers leave must reach every outer one, and be left alone when nothing changed", "anchors": ["src/tool1cd/cfapi/V8Catalog.cpp: V8Catalog(V8File*), CreateCatalog, Flush, ~V8Catalog", "src/tool1cd/cfapi/V8File.cpp: get_catalog, is_catalog, get_file_length, flush, close, delete_file"]}
{"id": "C96", "title": "Update files keep what is stored in them", "statement": "A user who makes a new update file (.cfu), stores, replaces and removes contents in it, flushes, lets go of the file and takes it up again, and closes and opens it, finds under every name the content stored last under it, or nothing if there is none, and the names in the order in which they came in; what was flushed or closed is in the file on disk, compressed.", "quantifier": "all histories of storing, removing, flushing, letting go and reopening; all correct compression libraries", "why_tests_cant": "histories of any length; the file is the compression of the whole container, written over what was there before and read back past the end of the stream", "anchors": ["src/tool1cd/cfapi/V8Catalog.cpp: V8Catalog(String), Flush, HalfClose, HalfOpen, ~V8Catalog", "src/tool1cd/UZLib.cpp: ZInflateStream, ZDeflateStream", "src/tool1cd/SystemClasses/TFileStream.cpp: TFileStream"]}
{"id": "C97", "title": "The test of stored streams accepts readable texts and reports the others", "statement": "The test of an infobase's stored streams succeeds if the tables CONFIG, CONFIGSAVE, PARAMS, FILES and DBSCHEMA have the fields they should have and every record of them that is not removed has the size it says it has and holds a text that can be read: with a mark of its encoding, possibly behind a spreadsheet's or a schema's header, possibly compressed, and well formed if it is a bracket text. If that is not so, the test reports an error. It looks into containers in the same way.", "quantifier": "all infobases, all values of their records, all compression libraries", "why_tests_cant": "all contents of all records; a test of a tester needs every wrong content", "anchors": ["src/tool1cd/Class_1CD.cpp: T_1CD::test_stream_format, recursive_test_stream_format, recursive_test_stream_format2"]}
{"id": "C98", "title": "The test of the list of tables finds every table that is missing", "statement": "The test of the list of tables reads the record DBNames of the table PARAMS and succeeds exactly if the infobase has a table for every entry of that list that requires one: `_`, the word of the entry and its number, or, for parts of other tables, a table whose name ends so. Upper and lower case are the same. If a table is missing, if PARAMS or the record is missing, or if the record cannot be read, it reports an error.", "quantifier": "all lists, all sets of tables, all contents of PARAMS, all compression libraries", "why_tests_cant": "all lists and all sets of tables; a test of a tester needs every way a table can be missing", "anchors": ["src/tool1cd/Class_1CD.cpp: T_1CD::test_list_of_tables"]}
{"id": "C99", "title": "Temporary streams of processes that run at the same time", "statement": "Several processes of the program may run one after another or at once, in any interleaving. Each sees its temporary streams as byte arrays: what it wrote is what it reads, also after closing a stream. When a process ends, or is killed and the program is run again, no temporary file is left.", "quantifier": "all schedules of all processes, all crash points, all contents and uses of streams", "why_tests_cant": "all interleavings of any number of processes with ends and kills at any point", "anchors": ["src/tool1cd/TempStream.cpp: TTempStream, get_temp_name, DelayedInitTempPath, TTempStreamStaticInit", "src/tool1cd/SystemClasses/TFileStream.cpp"]}
{"id": "C100", "title": "Saving the value of a field to a file", "statement": "Saving a value that is null or empty returns false and leaves the disk as it was. Otherwise the file holds, without unpacking, exactly the blob; with unpacking, exactly its content: the list of users without its mask, values of system tables decompressed, values of the user's tables without their header. This holds whatever was in the file before, and for each of the values saved with the XML document of a table.", "quantifier": "all tables, keys, blobs, compressed forms, histories of the blob file and of containers, previous contents of the file", "why_tests_cant": "any value, any way it is stored, any number of values of a table", "anchors": ["src/tool1cd/Field.cpp: save_blob_to_file", "src/tool1cd/Table.cpp: export_to_xml"]}
{"id": "C101", "title": "Replacing type numbers", "statement": "Given a file of lines with a new number, a tab and an old number, the replacement of type numbers puts, in each live record and each four-byte binary column whose name ends with TREF, the new number where the old one was, changes nothing else, and returns true.", "quantifier": "all files, all bases, all records", "why_tests_cant": "any number of tables and records, any numbers", "anchors": ["src/tool1cd/Class_1CD.cpp: replaceTREF", "src/tool1cd/SystemClasses/String.cpp: TStringList::LoadFromFile", "src/tool1cd/TableIterator.cpp"]}
{"id": "C102", "title": "A directory as a storage of files", "statement": "A storage of files over a directory behaves like a map from names to contents: what was written, or copied, last under a name is what is read under it, a name is there exactly if something was written or was there before, a write reports whether the file was written, and no other path is touched.", "quantifier": "all directories, all names below them, all contents, all sequences of writes, copies, reads and questions", "why_tests_cant": "any history, any contents, any state of the file system", "anchors": ["src/tool1cd/ConfigStorage.cpp: ConfigStorageDirectory", "src/tool1cd/SystemClasses/TFileStream.cpp", "src/tool1cd/SystemClasses/TStream.cpp: CopyFrom"]}
{"id": "C103", "title": "The log of messages", "statement": "Once a log file is named, it holds at every moment exactly the messages reported since, of the least level asked for or above, in the order they were reported, each once, with all its details; without a log file the console does. From the log the messages and their details can be told.", "quantifier": "all sequences of messages, exceptions, changes of level and of listening, all texts and details", "why_tests_cant": "any history of messages, any texts; also the moment of a crash", "anchors": ["src/tool1cd/MessageRegistration.h: MessageDetails", "src/tool1cd/MessageRegistration.cpp", "src/tool1cd/Messenger.cpp: Messenger::AddDetailedMessage, Messenger::setlogfile, Messenger::set_log_level", "src/tool1cd/DetailedException.cpp"]}
{"id": "C104", "title": "Bracket trees in memory", "statement": "After any history of making, extending, relabelling and destroying trees, and of parsing texts, the nodes are exactly the trees the history describes: parent, first and last child, neighbours and the count of children agree, destruction ends and frees exactly the nodes below, and the other trees are untouched. A child asked for by number or name is that child; the text written from a node is the text of its tree; the path of a node names its position.", "quantifier": "all histories of edits on existing nodes, all texts parsed, all nodes, numbers and names", "why_tests_cant": "any history of edits and any shape of tree; pointers left wrong are seen only by a later step", "anchors": ["src/tool1cd/Parse_tree.cpp: Tree::Tree, Tree::add_child, Tree::add_node, Tree::get_subnode, Tree::get_next, Tree::~Tree, Tree::operator[], Tree::outtext, Tree::path, parse_1Ctext", "src/tool1cd/Parse_tree.h"]}
{"id": "C105", "title": "Text of an index", "statement": "Writing a well-formed index of any depth as text ends, and the text has a line for every entry of the index exactly once, in the order of the index, with its key in hexadecimal, and at each depth a line for every entry of the branch pages in their order. A line tells the key and the low eight bits of depth and record number.", "quantifier": "all files holding a well-formed index, of any depth, number of pages, length of keys and contents", "why_tests_cant": "all trees of pages and all entries; the recursion has no bound", "anchors": ["src/tool1cd/Index.cpp: Index::dump, Index::dump_recursive"]}
{"id": "C106", "title": "A table of files read from the bytes of its records", "statement": "If the columns of a table have the names of a table of files in any case of letters, and its records, in any order and with any removed or empty records between them, hold the parts 0, 1, ... of some files whose names differ in more than case, then opening the table succeeds; asking for a name, in any case of letters, finds nothing if no file has it, and otherwise a file whose contents are the bytes of its parts one after the other and whose name and times are those of the record of part 0. A table with other column names is refused.", "quantifier": "all tables, columns, offsets, nullable columns, numbers and orders of records, numbers of parts, names of any characters, part numbers below 2^31", "why_tests_cant": "all orders and contents of the records; the code has no bound on their number", "anchors": ["src/tool1cd/TableFiles.cpp: TableFiles::TableFiles, TableFiles::test_table, TableFiles::getfile", "src/tool1cd/TableRecord.h: TableRecord::get", "src/tool1cd/Common.cpp: time1CD_to_FileTime"]}
{"id": "C107", "title": "Configuration of a database exported to a container file", "statement": "If the records of a table of files hold the parts of some files, in any order, and the blob file of the table holds the bytes of the parts, then saving the configuration succeeds and writes a container which, opened again, has as many entries as there are files; asking it for the name of a file, in any case of letters, gives the bytes of the parts of that file one after the other, and asking for any other name gives nothing. Entries are named as in the records and carry the times of the records. Without the table nothing is written and saving fails.", "quantifier": "all tables, columns, orders of records, numbers of parts, blob files, contents and names of any characters, all existing files at the target", "why_tests_cant": "all contents of table and blob file; the chain crosses five modules that are tested apart", "anchors": ["src/tool1cd/ConfigStorage.cpp: ConfigStorageTable::ConfigStorageTable, ConfigStorageTable::save_config, ConfigStorageTableConfig", "src/tool1cd/TableFiles.cpp: TableFiles::TableFiles, TableFiles::getfile", "src/tool1cd/TableFileStream.cpp", "src/tool1cd/Table.cpp: Table::readBlob", "src/tool1cd/V8Catalog.cpp"]}
{"id": "C108", "title": "Objects of a process in memory", "statement": "Whatever internal files of databases are opened (also without success), read, written, locked in memory, closed, and whenever garbage is collected: going through the list of open files meets each of them once in the order of opening; reading one gives what was last written to it, whether it was kept in memory or not; a pointer to contents stays good as long as the file is not written or closed and garbage is collected only while it is locked or was used in the last five minutes; the files of a table are locked exactly while a lock of the table is held.", "quantifier": "all histories of any length, any number of files and databases, all times on a 32-bit clock", "why_tests_cant": "all interleavings of uses and collections; the list and its failures are global to the process", "anchors": ["src/tool1cd/V8Object.cpp: V8Object::init, V8Object::~V8Object, V8Object::garbage, V8Object::get_data, V8Object::set_lockinmemory", "src/tool1cd/Table.cpp: Table::set_lock_inmemory", "src/tool1cd/Class_1CD.cpp: T_1CD::find_lost_objects"]}
{"id": "C109", "title": "Dying while changes are stored", "statement": "Whatever pages of a database were read, changed, replaced or appended, and wherever the process dies while the changes are stored: the file holds the new contents up to some byte and what was last stored from there on; if no page was appended and the header was left alone it opens as before; if a single page was changed and no write of a page is cut, it is the old or the new database.", "quantifier": "all database files, all histories of page operations, all crash points within the storing of changes (between and within page writes)", "why_tests_cant": "every history has as many crash points as bytes", "anchors": ["src/tool1cd/MemBlock.cpp: MemBlockManager::flush, MemBlock::write", "src/tool1cd/Class_1CD.cpp: T_1CD::get_block_for_write, T_1CD::flush, T_1CD::open"]}
{"id": "C110", "title": "The view of a bracket text", "statement": "Whatever bracket text is shown, or whatever was done to a tree before: the rows shown below an element are its children in order, each in two columns; asking for any other row or column gives nothing; the way back from a child leads to its element; each element below the root is shown at exactly one place; the value column shows the number of elements of a list and the text of any other value, at most 40 characters of its first line where it is displayed, and the bytes where binary data is asked for.", "quantifier": "all texts, all trees and all histories of changes to them, all rows and columns, all values", "why_tests_cant": "the tree and the questions a view asks are unbounded", "anchors": ["src/gtool1cd/models/skobka_tree_model.cpp: SkobkaTreeModel::rowCount, SkobkaTreeModel::index, SkobkaTreeModel::parent, SkobkaTreeModel::data, trim_item_presentation", "src/tool1cd/Parse_tree.cpp: Tree::get_subnode, Tree::get_parent"]}
{"id": "C111", "title": "Lists and values in the graphical program", "statement": "The view of a container shows each of its files once and in order; the size shown for a table is right to the last 1024th of its unit; the list of databases opened before is the list of the names added, in order; a value is shown unpacked, however often it was packed; a file is taken for a container exactly when it begins like one.", "quantifier": "all containers and names, all sizes, all histories of opened files, all values and numbers of packings", "why_tests_cant": "sizes, names, histories and values are unbounded", "anchors": ["src/gtool1cd/models/v8catalog_tree_model.cpp: V8CatalogTreeModel::rowCount, get_file, V8CatalogTreeModel::index", "src/gtool1cd/models/tables_list_model.cpp: human_size", "src/gtool1cd/cache.cpp: Cache::getCachedList, Cache::addDbToList", "src/gtool1cd/models/table_data_model.cpp: inflate_stream", "src/gtool1cd/starter.cpp: is_container_file"]}
{"id": "C112", "title": "Configuration of an extension exported to a container file", "statement": "If the table of stored files holds, in any order of its records and parts, the list of files of a version of an extension and every file listed under its hash, then saving the configuration of that version succeeds and writes a container which, opened again, gives for every name listed, in any case of letters, the bytes of the stored file of the hash listed for it, the list itself as configinfo, and nothing for any other name. The same is saved for the extension as it is being edited when nothing of it is saved. A version without a file, or a list with a file that is not stored, is refused, and nothing is written.", "quantifier": "all tables, orders of records, numbers of parts, blob files, contents, lists of names and hashes, all earlier states of the target file", "why_tests_cant": "all tables and lists, all contents; what the target held before", "anchors": ["src/tool1cd/Class_1CD.cpp: T_1CD::save_config_ext, T_1CD::save_config_ext_db", "src/tool1cd/ConfigStorage.cpp: ConfigStorageTableConfigCas, ConfigStorageTableConfigCasSave, ConfigStorageTable::save_config"]}
{"id": "C113", "title": "Grid of the records of a table in the graphical program", "statement": "The grid has one row for each record of the table, or, when an index is chosen, one for each record on its leaves in the order of the index, and one column for each field under its name. Each cell shows the value of the field in the record its row stands for, {NULL} for a null value; what is edited or copied is the same text, empty for a null value, and for a large value the text it holds, unpacked. Removed records, and only these, are drawn in italics; numbers, and nothing else, to the right. Cells outside give nothing.", "quantifier": "all tables, records, fields, indexes of any depth and number of pages, all settings of identifiers, all rows and columns", "why_tests_cant": "all tables and index trees, every row and column", "anchors": ["src/gtool1cd/models/table_data_model.cpp: TableDataModel::rowCount, columnCount, data, headerData", "src/tool1cd/Index.cpp: Index::get_numrecords, Index::get_numrec", "src/tool1cd/TableRecord.cpp: TableRecord::get_string, is_null_value, is_removed, try_store_blob_data"]}
{"id": "C114", "title": "Editing the bytes of a large value in the graphical program", "statement": "Inserting, removing and overwriting bytes within the value change exactly these bytes; undoing and redoing any number of edits in any order gives exactly the bytes there were, and undoing all of them the value as it was opened. The bytes copied or removed are those between the ends of the selection, both included, whichever way it was made. Searching forward finds the first place at or behind the cursor, backward the last one before it, and nothing only if there is none; what is found is selected.", "quantifier": "all values, all histories of edits, undos and redos, all selections, all searched bytes", "why_tests_cant": "histories of any length over values of any size", "anchors": ["src/gtool1cd/QHexEdit/document/qhexdocument.cpp: QHexDocument::insert, remove, replace, undo, redo, removeSelection, selectedBytes, paste, searchForward, searchBackward", "src/gtool1cd/QHexEdit/document/qhexcursor.cpp: QHexCursor", "src/gtool1cd/QHexEdit/document/commands/*.cpp", "src/gtool1cd/QHexEdit/document/buffer/qmemorybuffer.cpp"]}
{"id": "C115", "title": "Storing in a file of a container what a stream holds", "statement": "Storing a stream in a file of a container, wherever the stream stands, makes the file hold exactly the bytes of the stream, whatever it held before; from a place on, the next bytes of the stream take the place of as many bytes of the file and nothing else changes; a place beyond the end is refused. This holds for streams in memory and for streams over files of containers, the same file included.", "quantifier": "all files, contents, streams, positions and counts", "why_tests_cant": "all contents, lengths, positions and counts, and both kinds of streams", "anchors": ["src/tool1cd/cfapi/V8File.cpp: V8File::write(TStream*), V8File::write(TStream*, int, int)", "src/tool1cd/cfapi/TV8FileStream.cpp: TV8FileStream"]}
{"id": "C116", "title": "Exporting a configuration again gives the same file", "statement": "In every history of exporting a configuration and of opening, raw opening and closing its files, at whatever times and into whatever files, every export succeeds like the first and gives the same file, byte by byte: a container of the files of the configuration with their raw contents.", "quantifier": "all configurations, all histories of exports and uses of files, all times and previous contents of the target", "why_tests_cant": "all histories; the files keep their streams from one export to the next", "anchors": ["src/tool1cd/ConfigStorage.cpp: ConfigStorageTable::save_config, ContainerFile::open, ContainerFile::ropen, ContainerFile::close", "src/tool1cd/Class_1CD.cpp: T_1CD::save_config"]}
{"id": "C117", "title": "Power fails while changes are stored", "statement": "Whatever pages of a database were read, changed, replaced or appended: if the power fails while the changes are stored, and whichever of the bytes written have reached the disk, in whatever order, every byte of the file is the old or the new one, or zero behind the old end; pages that were not changed are as before; if no page was appended and the header was left alone the file opens as before.", "quantifier": "all database files, all histories of page operations, all sets and orders of the bytes written", "why_tests_cant": "every subset of the bytes written, in every order", "anchors": ["src/tool1cd/MemBlock.cpp: MemBlockManager::flush, MemBlock::write", "src/tool1cd/SystemClasses/TStream.cpp: TWrapperStream::Write", "src/tool1cd/Class_1CD.cpp: T_1CD::flush, T_1CD::open"]}
{"id": "C118", "title": "The process ends before a container is closed", "statement": "After any history of a container that ends with flushing it, new files are added and the process ends before the container is closed: the file opens as a container, and every name gives what it gave when the container was flushed; what was added since is gone. In particular what is left of an export that was cut short, after however many files, opens without complaint as a container without files.", "quantifier": "all histories up to a flush, all lists of new files, all points between files; all configurations and all prefixes of their files", "why_tests_cant": "every history and every point at which the process may end", "anchors": ["src/tool1cd/cfapi/V8Catalog.cpp: V8Catalog::flush, V8Catalog::write_block, V8Catalog::~V8Catalog, V8Catalog::initialize, V8Catalog::createFile", "src/tool1cd/cfapi/V8File.cpp: V8File::write_and_close", "src/tool1cd/ConfigStorage.cpp: ConfigStorageTable::save_config"]}
{"id": "C119", "title": "Replaced files and new files when the process ends before a container is closed", "statement": "After any history of a container that ends with flushing it, files are written, some under names that are there and some under new ones, and the process ends before the container is closed: the file opens as a container that has exactly the names it had when it was flushed; under each is what was written last, also what was written after the flush; the new names are not there.", "quantifier": "all histories up to a flush, all lists of files written then, all points between files", "why_tests_cant": "every history and every mixture of replaced and new files", "anchors": ["src/tool1cd/cfapi/V8Catalog.cpp: V8Catalog::flush, V8Catalog::write_block, V8Catalog::initialize, V8Catalog::createFile", "src/tool1cd/cfapi/V8File.cpp: V8File::write_and_close, V8File::set_time_create, V8File::set_time_modify"]}

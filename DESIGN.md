# Formal model of tool1cd: design

The subject is the C++ library `/repo/src/tool1cd` (and the command-line front
end `/repo/src/ctool1cd`). The code is not built or run; the model is a
hand-written transcription of it into Lean 4, function by function, and every
definition cites the file and lines it models.

## Layout

`lean/Verif/<Area>/` holds, for each area of the code:

* `Model.lean`    – transcription of the code (each definition cites its source);
* `Spec.lean`     – the small, independent vocabulary in which the properties are stated;
* `Lemmas.lean`   – helper lemmas (not part of any claim);
* `Theorems.lean` – the property theorems, each followed by an `example` showing
  that a concrete non-trivial case meets its hypotheses.

## Modelling conventions

* Bytes are `UInt8`; byte buffers, files and pages are `List UInt8`.
* Undefined behaviour (out-of-bounds access, use of uninitialised memory, null
  dereference) is a separate outcome `Outcome.ub`, distinct from `Outcome.throw`
  (C++ exception) and `Outcome.ok`. A loop that the code may run forever is
  given fuel; "does not terminate" is stated as "no amount of fuel suffices".
* Integers are `Nat`/`Int` unless the property is about wrap-around; the places
  where the code truncates to 32 bits and the property cares are modelled with
  explicit `% 2^32`.
* Mutation through pointers becomes a returned value. Logging is not modelled.

## Trusted base

* Lean 4.33.0's kernel. The build uses no compiled evaluation in proofs (`native_decide`, `bv_decide`).
* The three standard axioms `propext` (P), `Classical.choice` (C), `Quot.sound` (Q). No axioms are added. The section
  "Axioms per theorem" lists which of them each claimed theorem depends on.
* The faithfulness of the transcription. Nothing checks that a definition does what the cited lines do, except
  reading both. Each definition cites its lines and says where it simplifies.
* The reading of C++ where the standard leaves room: 64-bit `size_t`, two's complement, signed `char`, little-endian
  integers, `std::map` ordered by its key, one thread.
* The surroundings of the code, which appear as parameters with explicit laws and, beside them, an instance that meets the laws:
  zlib (a streaming codec), the operating system's file (bytes with positioned read and write that do not fail),
  Boost.Regex (the fixed expressions of the tree parser are transcribed as predicates; the name patterns of the command line as a matcher
  for the operators the code produces), the clock, directory listings, letter case (`towlower` as a function on characters).

What is not modelled anywhere: memory exhaustion, input/output errors, concurrency (apart from C99), the texts of messages, locale, the
graphical program (src/gtool1cd) apart from what is cited below, and the test programs.

## What is modelled

The lines of /repo cited by definitions of the model (file: lines). A function outside these lines is not modelled.

<!-- modelled begin -->
* APIcfBase.cpp: 35-93  (59 lines)
* APIcfBase.h: 36, 40, 70-73, 80-84, 89-103, 126-135  (36 lines)
* App.cpp: 49-55, 64-163, 172-216, 235-279, 291-314, 325-345, 355-372, 387-502, 516-537, 548-686  (537 lines)
* App.h: 48-50  (3 lines)
* Base64.cpp: 30-33, 38-80, 85-120, 124-163  (123 lines)
* BinaryDecimalNumber.cpp: 42-43, 47-172, 186-204, 212-285  (221 lines)
* BinaryDecimalNumber.h: 28-47, 52  (21 lines)
* BinaryGuid.cpp: 26-32, 50-75, 86-188, 197-219  (159 lines)
* BinaryGuid.h: 29, 51  (2 lines)
* CRC32.cpp: 24-38  (15 lines)
* Class_1CD.cpp: 58-111, 236-334, 340-404, 410-428, 441-479, 492-546, 571-574, 578-605, 609-1190, 1204-1387, 1400-1697, 1705-1895, 1899-1935, 1964-2180, 2251-2272, 2317-2345  (1923 lines)
* Class_1CD.h: 72-81, 85-99  (25 lines)
* Common.cpp: 33, 38-84, 90-95, 99-104, 108-112, 116-120, 124-161, 168-188  (129 lines)
* Common.h: 45-60  (16 lines)
* ConfigStorage.cpp: 0, 36, 44-100, 119-173, 192-210, 216-374, 421-437, 442-459, 516-554, 577-683, 695-844, 856-1124, 1132-1167  (928 lines)
* ConfigStorage.h: 71  (1 lines)
* Constants.h: 29-35, 39-151, 186-188  (123 lines)
* DetailedException.cpp: 27-30, 36-40  (9 lines)
* Field.cpp: 60-192, 216-470  (388 lines)
* Field.h: 36-90  (55 lines)
* FieldType.cpp: 34-35, 40-85, 137-158, 180-187, 306-536, 540-886, 895-914  (676 lines)
* Index.cpp: 31, 69-300, 318-333, 352-379, 399-602, 610-622, 635-785, 799-1185, 1197-1264  (1100 lines)
* Index.h: 46-51, 69-90  (28 lines)
* MemBlock.cpp: 26-61, 70-115, 144-162  (101 lines)
* MemBlock.h: 29-55, 60-99  (67 lines)
* MessageRegistration.cpp: 26-30, 72-83  (17 lines)
* MessageRegistration.h: 28-36  (9 lines)
* Messenger.cpp: 29-35, 45-71  (34 lines)
* Messenger.h: 26-42  (17 lines)
* NodeTypes.h: 27-39  (13 lines)
* PackDirectory.cpp: 29-33, 66-103  (43 lines)
* Packdata.cpp: 29-73  (45 lines)
* Packdata.h: 37-41  (5 lines)
* ParseCommandLine.cpp: 36-155, 159-172, 176-266  (225 lines)
* ParseCommandLine.h: 29-66  (38 lines)
* Parse_tree.cpp: 32-38, 43-100, 115-119, 127-151, 178-253, 257-308, 321-543  (446 lines)
* Parse_tree.h: 30-73  (44 lines)
* String.cpp: 37-60, 75-83, 107-151, 158-166, 173-191  (106 lines)
* SupplierConfig.cpp: 38-70, 85-89  (38 lines)
* SupplierConfigBuilder.cpp: 34-220  (187 lines)
* System.Classes.cpp: 31-37  (7 lines)
* System.SysUtils.cpp: 44-53, 78-100, 127-143, 164-177  (64 lines)
* System.SysUtils.hpp: 32-33  (2 lines)
* System.cpp: 42-57, 61-115  (71 lines)
* System.hpp: 34, 42-47, 61-71  (18 lines)
* TFileStream.cpp: 31-56, 63-92  (56 lines)
* TMemoryStream.cpp: 34-71, 83-89  (45 lines)
* TStream.cpp: 33-36, 44-85, 91-114, 124-136, 150-236  (170 lines)
* TV8FileStream.cpp: 25-29, 33-37, 41-54, 59-72, 76-115  (78 lines)
* Table.cpp: 41-85, 109-111, 140-505, 589-599, 605-656, 704-725, 729-1044, 1053-1320, 1326-1628, 1639-1644, 1666-2296, 2303-2440  (2161 lines)
* Table.h: 47-81, 91-105, 200-230  (81 lines)
* TableFiles.cpp: 37-52, 65-228  (180 lines)
* TableIterator.cpp: 24-51, 68-73, 83-110  (62 lines)
* TableRecord.cpp: 69-103, 112, 117, 127-166, 173-199  (104 lines)
* TableRecord.h: 75-85, 93-97, 130-132  (19 lines)
* TempStream.cpp: 34-41, 52-73, 77-83  (37 lines)
* UZLib.cpp: 32, 43-165  (124 lines)
* V8Catalog.cpp: 34-151, 155-412, 421-441, 454-473, 477-510, 560-762, 773-790, 794-813, 824-899, 903-918, 922-928  (791 lines)
* V8File.cpp: 33-62, 75-90, 94-141, 145-171, 175-178, 182-198, 202-218, 222-239, 243-259, 263-280, 316-405, 413-462, 473-575, 584-594, 629-701  (539 lines)
* V8Object.cpp: 29-30, 35-56, 77-1388, 1417-1476  (1396 lines)
* V8Object.h: 88-95, 136-156  (29 lines)
* V8Time.cpp: 26, 54-65, 71-84  (27 lines)
* blob_viewer.cpp: 141  (1 lines)
* cTool_1CD_Main.cpp: 34-53  (20 lines)
* cache.cpp: 50-81  (32 lines)
* checked.h: 72-96, 136-155, 206-246  (86 lines)
* core.h: 68-72, 92-132, 152-218, 222-278  (170 lines)
* db_ver.h: 24-32  (9 lines)
* insertcommand.cpp: 9-10  (2 lines)
* qhexbuffer.cpp: 9-13  (5 lines)
* qhexcursor.cpp: 4-42, 46, 68-74, 98-102  (52 lines)
* qhexcursor.h: 9-20  (12 lines)
* qhexdocument.cpp: 10-27, 51-66, 80-90, 115-132, 143-159, 171-196  (106 lines)
* qmemorybuffer.cpp: 6-7  (2 lines)
* removecommand.cpp: 9-15  (7 lines)
* replacecommand.cpp: 9-15  (7 lines)
* save_depot_config.cpp: 44-593  (550 lines)
* save_part_depot_config.cpp: 49-510  (462 lines)
* skobka_tree_model.cpp: 34-178  (145 lines)
* starter.cpp: 101-113  (13 lines)
* table_data_model.cpp: 31-45, 58-149, 190-206  (124 lines)
* tables_list_model.cpp: 31-48  (18 lines)
* v8catalog_tree_model.cpp: 44-47, 57-86  (34 lines)
<!-- modelled end -->

Of the larger files, not modelled:

* Class_1CD.cpp: format tests of streams above 10 MiB; what `create_table` does after reading a variable without a value.
* Table.cpp: building of files when a table is created.
* Index.cpp: keys of no bytes in insertion and deletion; what an addition does to a branch page without entries when keys have at most four bytes; dividing a full branch page (undefined before it begins).
* V8Object.cpp: shrinking in format 8.3.8, and growing from its free pages, apart from the counterexamples.
* V8Catalog.cpp, V8File.cpp: writing to an entry while its inner container is open; `HalfClose` and `HalfOpen` of containers other than `.cfu` files.
* ConfigStorage.cpp: paths with `..` or links in the directory variant.
* Messenger.cpp, MessageRegistration.cpp, DetailedException.cpp: messages and their log (C86, C103); not which texts the other functions give to them.

## Disagreements between the code and the properties

Each is a theorem (named in brackets), general unless it says "for example".

* C02: a negative text is stored as another number [`numeric_negative_text_is_lost`].
* C05, C04: decoding a date reads ten bytes of a seven-byte field.
* C08: only the first occurrence of each special character is escaped [`xml_second_occurrence_raw`].
* C13: POSIX and container times do not survive the conversion and back [`posix_filetime_shift`, `v8time_not_roundtrip`].
* C14: a refused seek moves the position; negative seeks are accepted [`failed_seek_moves`, `negative_seek_accepted`].
* C15: copying from an exhausted source writes zeros [`copy_exhausted_writes_zeros`]; a write after a short read is lost
  [`file_write_lost_after_short_read`].
* C16: input whose size is a multiple of 16384 is never finished [`deflate_multiple_fails`]; truncated input is accepted.
* C22: after a whole read, reads past the end are undefined behaviour [`read_outside_cached_unchecked`].
* C24: the position in the file wraps at 4 GiB.
* C25: truncation to 0 never returns [`set_len_zero_never_returns`]; growing writes past a vector [`set_len_grow_overflows`]; format 8.3.8:
  growing overwrites page 0 [`grow_838_overwrites_page_zero`], shrinking two levels reads an uninitialised pointer
  [`set_len_838_shrink_two_levels`], an empty object cannot grow [`set_len_838_from_empty`]
  or gets an empty first table [`grow_838_empty_first_table`], growing within one level overflows [`set_len_838_one_overflows`], the maximal length wraps [`max_length_wraps`].
* C26: in format 8.3.8 releasing a page destroys the root of the free list [`release_838_breaks_root`].
* C27: deleting an object releases its header page once per allocation table [`delete_once_iff`]. In format 8.3.8 it takes the
  data pages for allocation tables and releases the pages their contents seem to name, whoever these belong to [`delete_838_once_iff`,
  `delete_838_foreign`], page 0 for two-level objects [`delete_838_two_level`], or reads beyond the page [`delete_838_ub`].
* C28: the version reported after a write is the old one [`reported_version_is_stale`].
* C30: storing a buffer of a length not divisible by 250 stores zeros for its tail [`store_chars_reads_back_wrong`].
* C32: a cycle of empty blocks is read for ever; the table reader ignores a wrong length [`table_read_ignores_length`].
* C33: the hidden VERSION field has no place [`hidden_version_has_no_place`]; negative lengths overlap [`negative_length_overlaps`].
* C34: setting a nullable field copies a byte too many [`set_data_nullable_spills`]; setting a null field leaves it null
  [`set_on_null_is_lost`].
* C35: record numbers wrap at 4 GiB [`record_number_wraps`].
* C37: changing a stored record is undefined behaviour [`edit_existing_ub`].
* C38: a page filled to its last bytes cannot be read back [`full_page_unreadable`].
* C41: empty lists and some roots are not read back as written.
* C42: text with a NUL, or ending in an unclassifiable value, is accepted unbalanced.
* C44: block numbers of 2^31 and above cannot be read back [`header_large_unreadable`].
* C46: rewriting a block that was created empty destroys its neighbour [`rewrite_of_empty_block_destroys_neighbour`].
* C47: deletion by name through the catalog goes on through the deleted object [`catalog_delete_undefined`].
* C48: the modification time of an entry is lost [`modification_time_lost`].
* C49: a negative part number writes outside the list [`negative_part_ub`].
* C50: a listed dynamic update is never recognised [`listed_update_loses`].
* C51: directory names in paths lose their last character [`directory_missed`, `written_elsewhere`]; an empty one, as before a separator at the beginning, stands
  for the rest of the path [`leading_separator`].
* C52: a depot without history dereferences a null pointer [`no_history_ub`].
* C54: an empty packed object is served as the whole pack [`empty_object_wrong`].
* C55: a file shorter than its header, or a page size of 0, is undefined behaviour.
* C56: keys of 128 bytes and more are undefined behaviour [`long_key_ub`]; an empty key zeroes a byte [`empty_key_zeroes`].
* C57, C58: an empty argument is undefined behaviour, two closing quotes never return, -bf takes the next argument [`bf_takes_file`].
* C60, C61: equal last keys are undefined behaviour; after a deletion the remaining entries need not fit, and the page is destroyed.
* C62: the first number of a version range loses its last digit [`range_begin_cut`].
* C63: special characters in name patterns are not taken literally [`dot_matches_anything`].
* C64: a root object with a wrong number of tables is read past its end [`root_overrun_ub`].
* C66: an entry created but never written makes the flushed container unreadable [`created_entry_breaks_container`]; an entry stored empty without packing loses what is stored later [`empty_content_breaks_entry`]; packed contents of a multiple of 16384 bytes are not stored [`zip_multiple_not_stored`].
* C67: the test throws for streams such as those starting with FF FF FF FF [`recognising_throws_iff`, `ff_file_throws`].
* C65: empty contents, negative lengths and large blobs are exported wrongly
  [`empty_content_exports_all`, `negative_length_ub`, `large_keeps_blob`].
* C68: texts of bytes end in two NULs [`binary_text_has_nul`]; a wrong count of a string reads past the field [`varchar_count_reads_past`];
  a date at the end of a record reads past it [`date_text_reads_past`].
* C69: entering the bytes or the identifier shown changes them [`entry_binary_wrong`, `entry_identifier_wrong`]; entering a string reads
  past the text [`entry_string_reads_past`].
* C70: the second special character of a string is not escaped [`string_xml_second`]; text fields are read past their end
  [`text_xml_reads_past`]; on Linux images contain NULs [`image_xml_nul`]; years before 1000 have fewer than four digits [`empty_date_xml`].
* C71: the key of a record is taken from twice the offset of the field [`record_key_place`, `record_key_ignores_value`,
  `record_key_reads_past`]; strings have no keys [`string_record_key`]; keys overlap after a nullable field [`next_key_overwrites`]; a null
  overruns the key buffer [`null_key`].
* C72: if the last allocation table of a file of format 8.0, not being the first, lists one page, the bytes for that page are not stored
  [`set_whole_80_loses_last_page`, `set_whole_80_wrong`]; a file cannot be emptied [`set_whole_80_empty_never_returns`]; an empty file of
  format 8.3.8 cannot be filled [`set_whole_838_from_empty`].
* C73: tables in order are reported as damaged if they have removed records [`removed_never_fits`, `free_list_never_fits`] or records with
  less than four bytes of fields [`short_records_never_fit`]; if the records do not end with a page the repair reads memory that was never
  written and cannot succeed [`repair_never_returns`]; a lost placement page leads to undefined behaviour [`lost_placement_page_ub`].
* C74: what is stored for a new or deleted record is the memory of the record object (two addresses and a number), not its bytes
  [`insert_stores_memory`, `insert_reads_memory`]; behind that memory the behaviour is undefined [`delete_long_ub`, `insert_ub`]; a second
  new record is refused after the first was stored [`second_insert_throws`]; changed records and new records with blobs are undefined
  [`update_never_returns`, `insert_ub`]; a blob field that can be null is read one byte too early when its record is deleted
  [`nullable_blob_start`, `delete_nullable_blob_throws`]; the place of a deleted record is not used again [`deleted_place_is_lost`].
* C75: an entry whose key the leaf before also ends with is not found [`delete_misses_repeated_key`]; the last entry's removal frees the
  root page while it stays the root [`delete_last_entry_frees_root`]; overlapping bytes are copied with `memcpy` [`delete_overlapping_ub`].
* C76: after the last entry was removed an addition is undefined [`insert_after_last_removed_ub`]; splitting a leaf loses entries of the
  page above [`split_loses_leaves`]; splitting a leaf below a full page overruns a buffer [`split_below_full_page_ub`].
* C77: a hash shorter than the one before it in the list is read with the rest of that one behind it [`shorter_hash_refused`].
* C78: any saved file makes the configuration be refused [`saved_refused`]; a name without a hash is a null pointer [`name_without_hash_ub`].
* C79: names with an extension, files for the next start and updates lose the last character before the extension or mark
  [`extension_lost`, `new_lost`, `update_lost`]; deleted files are compared in the other way to write identifiers and stay
  [`deleted_stays`]; a list that announces more identifiers than it has is a null pointer [`long_count_ub`].
* C80: a file that could not be read is given short at the next opening [`reopened_short`, `reopened_short_packed`]; a stream is lost
  [`unpacked_leaks`]; a file with an empty name is undefined [`empty_name_ub`].
* C81: exporting all tables, the records of a table with indexes but no primary one are left out [`all_loses_records`]; every blob is put
  below the file of the one before it [`blobs_nested`]; the file of a record with a repeated name gets a control character instead of a number
  [`repeated_name`]; the number of image fields is not initialised, so that tables may be refused and files named in different ways
  [`junk_refuses` and the examples after it]; values with a raw `<` (C70) make the document unreadable [`raw_value_unreadable`].
* C82: an object that had data in the table before gets the contents of another file, or none [`changed_object_of_another`, `changed_object_empty`], and
  without hashes is undefined [`changed_object_ub`]; a later record without data hides the data [`later_record_hides_data`]; the list of what was
  deleted is to be written below the file of the database [`list_below_database`]; the layout is that of the row that comes later
  [`layout_of_later_row`]; without history a null pointer is used [`no_history_ub`].
* C83: an import of a file that is empty or has disappeared over one that is not empty never returns [`import_empty_never_returns`]; without the
  record `root` it is undefined [`import_without_root`]; in format 8.3.8 it overwrites the length of every file with a version number
  [`import_838_wrong_length`].
* C84: the times of modification are lost [`modified_lost`] and the names in the container have two NULs behind them [`names_padded`]; this is
  how `initialize` reads any container (C48).
* C85: one file with a name of 73 characters that is not a vendor configuration hides all others [`damaged_hides_all`], and after such a failure the
  next request lists entries twice [`listed_twice`]; metadata that count more nodes than they have are undefined behaviour
  [`short_count_ub`], without the general node a configuration is listed without a name [`nameless`]; configurations of the same name and version
  overwrite each other [`same_name_overwritten`]; a file that cannot be created is reported saved [`not_created_reported_saved`].
* C86: the exit status is 0 whatever errors the commands reported, since nothing sets the flag `main` looks at [`commands_in_turn`]; `-nv` has
  no effect on messages [`not_silent`]; a log file with the path of the database removes the database before it is opened
  [`log_deletes_database`]; the name of a vendor configuration can lead out of the directory given [`vendor_escapes`]; lengths of 2 GiB and more are
  printed negative [`sizes_negative`]; that the file of sizes cannot be created is not reported [`sizes_not_created`].
* C87: an open object of another database with the same page number hides a lost one [`foreign_hides`]; the files are written beside the
  directory, not in it, unless its name ends with a slash [`beside`]; a damaged object ends the search [`damaged_stops`]; objects of
  format 8.3.8 are never found [`none_838`, `nothing_saved_838`], and there a page of data with the old mark leads to a list of objects that
  runs through memory given back [`mark_838_ub`].
* C88: in a database opened for reading only, deleting a table fails only after its pages have been given back [`delete_readonly`]; a
  table not on the list costs the last one its place there [`absent_drops_last`]; a deleted table is found as a lost one and listed again
  although its pages are free, and the next object gets its header page [`deleted_returns`]; the header page of an empty file of the table
  is not given back (`given` in the specification, as in C27).
* C89: no folder written by exporting a table that has a description can be made a table again with defined behaviour: the call reads a
  local variable that was never given a value [`create_exported_undefined`, `create_ub`]. A run that does return has put no table on the list
  [`create_never_lists`, `create_only_removes`], reports success, and has deleted the table of the same name [`create_loses`].
* C90: the file that was there before is removed before the objects are read: when the contents of one are missing, saving fails and leaves an empty
  container in its place [`missing_data`]. The snapshots of versions whose numbers have the same last five digits have the same name [`snapshot_names`].
* C91: a field whose name ends in two letters of two bytes each (Cyrillic ones) makes the table impossible to open, because the test for the ending
  `REF` cuts a character in two [`cyrillic_field_refused`]; lengths of fields whose sum does not fit 32 bits are not refused but undefined
  [`huge_undefined`]; the check of the first free page of the index file wraps around at 4 GB [`far_free_page_passes`].
* C93: seeking from the end goes beyond it [`seek_end_passes_end`] or does nothing [`seek_end_ignores`]; seeking back too far is accepted and the next read
  undefined [`seek_before_start`]; a stream behind the end of a shortened file throws [`read_after_shortening`]; the position reported is always 0
  [`reported_position_is_zero`]; destroying a file with an open stream is undefined [`destroy_with_stream`].
* C94: a stream that was closed and is destroyed, or closed again, without being used in between follows a null pointer [`closing_undefined_iff`,
  `closed_then_destroyed`]: so does saving any entry of a container to a file [`save_entry_undefined`], saving a container to a directory
  [`save_dir_undefined`], and an empty object of a depot [`empty_object_undefined`]; writes after a read that met the end are lost
  [`write_after_short_read_lost`]; a file that may not be written reads as empty, without an error [`unwritable_file_reads_empty`].
* C96: changes to an update file that was opened are lost without an error, because reading it met its end: closing leaves the file as it was, and a
  `HalfClose` and `HalfOpen` before the changes are needed [`changes_to_existing_lost`]; a new update file closed without storing anything is empty, and
  is not a container when opened again [`unused_file_is_no_container`]; flushing between `HalfClose` and `HalfOpen` forgets the changes
  [`flushed_while_let_go_lost`]; a container whose size is a multiple of 16384 is written without the end of its compressed stream, and leaves the old
  file's tail behind it [`multiple_not_saved`].
* C97: the test of the stored streams never passes a container that has an entry other than a container (every configuration is one): the streams it
  opens on the entries are never deleted, so destroying the container is undefined [`container_never_passes`, `sound_container_undefined`]; an inner
  container whose directory cannot be read is passed over [`broken_inner_passes`]; an empty container and a compressed empty value are reported
  [`empty_container_reported`]; a bracket text whose first fifteen bytes end in the middle of a character is reported, such as one that begins with
  a string of seven Cyrillic letters [`cyrillic_reported`]; the texts `{ХАРАКТЕРИСТИКИ…` that are to be left out are reported, all of them
  [`excluded_reported`]; the records of FILES are not tested [`files_not_tested`]; the result is never false [`never_false`]; an empty text in UTF-16
  behind a spreadsheet's header is reported [`empty_sheet_reported`].
* C98: the test of the list of tables looks for the opening brace from the second character of the text on, so it reports every list that begins
  with a brace and something else than a brace or a blank, as all those the platform writes do [`usual_list_reported`]; the loop that compares the
  names of the fields runs over a variable that was given no value, so wrong names may pass [`fields_not_tested`]; an entry with fewer than two
  elements makes it undefined [`short_entry_undefined`].
* C99: all processes share one directory for temporary files, which each removes when it makes its first temporary stream and when it ends. A stream
  made after another process has ended accepts everything, reports success, and has nothing [`lost_after_exit`]; what was written into a stream that
  was then closed is lost when another process makes its first one [`closed_lost_after_start`]; files of destroyed streams stay until the process
  ends [`files_stay`].
* C100: of the values saved with the document of a table only the first can be written: each path is below the one before [`only_first_saved`]; where a
  file cannot be made the value is reported as saved [`unwritable_reported_saved`]. Saving a container is undefined [`container_undefined`], a compressed
  value of no bytes becomes a container of 16 bytes [`empty_saved_as_container`], and in most tables a value that looks compressed is decompressed
  twice [`inflated_twice`].
* C101: replacing type numbers replaces nothing. The call returns only if there is nothing to replace [`returns_iff`]; otherwise it stays on the first
  record for ever [`never_ends`], or reads behind the map if that record's number is not in it [`unknown_number_undefined`]. A negative old number writes
  before the map [`negative_undefined`].
* C102: a write to a directory storage that cannot be made is reported as made [`unwritable_reported_written`, `missing_directory_reported_written`]; a file the
  user may only read is read as an empty one, and so is a directory, which counts as a file [`read_only_is_empty`]; a file written with its own stream is
  lost [`copied_onto_itself_lost`].
* C103: a message is written once only if the compiler builds the object of its details in place, which the language permits but does not demand: each copy
  repeats the text without details [`copies_repeat`]. Messages are lost if the log file cannot be written [`unwritable_lost`]; a text with a newline cannot be
  told from two messages [`newline_ambiguous`]; progress is shown nowhere [`progress_unseen`].
* C104: the number a node keeps of itself is not changed when a neighbour is destroyed, so its path then names another position [`path_after_destruction`];
  a negative number of a child, and an index beyond the children, run off the chain [`negative_number_undefined`, `indexing`].
* C105: depth, page and record numbers are appended to a string as one character each, so their upper bits are lost and different indexes give the same text [`dump_loses_numbers`];
  a page that names itself is written without end [`dump_cycle_never_ends`]; masks that do not fit the length of keys are not tested [`dump_bad_masks_ub`].
* C106: one record with data and a null name, or with a part number of 2³¹ or more, makes the whole table unusable [`null_name_spoils`, `great_part_throws`]; only the names of the columns
  are tested, and a column of another type is read past the end of the record [`types_not_tested`].
* C107: a name that ends with a point stands for the name without it, so of two files that differ so only one is exported [`last_point_lost`, `point_merged`]. The theorem keeps to names
  that stand for themselves; names of dynamic updates are C50.
* C108: an object is put on the list before its page is read, and taken off by its destructor only: after a construction that failed, the next construction writes to released memory and
  every walk reads it [`failed_creation_undefined`, `failed_creation_walk`]. The list is one for all databases, so that objects of another open database hide lost ones
  [`known_whatever_database`, `other_database_hides`]. Locks of an object are not counted [`locks_not_counted`].
* C109: the header page with the new number of pages is written first. After an append, a process that dies before the last page is written leaves a file that is never opened again
  [`crash_refused`, `append_then_crash`]; without an append it may leave a database that is neither the old nor the new one [`crash_mixes`].
* C110: the first line of a text is cut one character before its line feed, so that it is short of a character when lines end in line feed alone, and the whole text is displayed
  when it begins with a line feed [`shown_wrong_line`].
* C111: rows of a container are counted in the map of names, which has one entry for names that differ in case alone, so that the last files are not shown [`catalog_hides`]; sizes from 1001 TiB on
  read past the list of units [`size_undefined`]; a file opened again is listed again [`list_repeats`]; values packed more than twelve times are shown packed [`value_left_packed`].
* C112: besides what C77, C78 and C84 leave out, a file listed as `configinfo` takes the place of the list [`list_replaced`].
* C113: a large value that is empty is given as `{catalog}` [`empty_value_is_a_container`]; a text that is not well-formed UTF-16 makes an exception leave the model of
  the grid [`malformed_text_escapes`].
* C114: bytes written over the end of a value stay when the edit is undone [`overwriting_the_end_not_undone`]; pasting over a selection made forward puts the bytes
  behind its place, and spaces before them at the end [`pasting_misplaced`]; a search for one byte never moves on [`search_of_a_byte_stays`]; searching backward
  from the beginning goes on from the end [`search_back_wraps`].
* C115: from a stream at its end zeros are stored [`nothing_left_stores_zeros`], a count of 0 stores all of it [`no_bytes_stores_all`]; from a stream over the file
  itself the bytes are stored behind those read, wherever they were to go [`own_stream_misplaced`], and the whole file is doubled [`own_stream_doubles`].
* C116: a file that cannot be read makes an export fail, but what had been read of it stays and is taken for the whole file by the next
  one [`failed_reading_stays`, `second_export_truncated`].
* C117: pages reach the disk out of order [`power_out_of_order`]; a file to which pages were appended is refused if the header or the pages are
  missing [`power_refused`].
* C118: an export that is cut short leaves a container that opens without complaint and has no files in it [`export_cut_short`]; files that were removed
  before the process ended come back, with their contents in their names and parts of other files in their contents [`removed_comes_back`].
* C119: a container that was not closed is neither the old nor the new one: what was replaced is new, what was added is missing [`replaced_kept_partial`].

## Plan per property

| id | what is modelled, how it is proved |
|----|------------------------------------|
| C01 | nibble packing/unpacking loops; round trip by induction over the digit list two at a time |
| C02 | string constructor, padding, saturation, presentation; value function on digit lists as the spec |
| C03 | sort-key function; order of keys = order of values via positional value of equal-length digit lists |
| C04 | date constructor/format; round trip over 14 digits |
| C05 | decoders over a bounded buffer with an `ub` outcome for reads outside; 19-digit date decode shown to over-read (negation), the others proved in bounds |
| C06 | index permutations on 16 bytes, hex codec |
| C07 | encoder loop, decoder loop with noise skipping; 3-byte group arithmetic |
| C08 | five sequential replaces shown equal to one character map; entity decoder is the spec |
| C09 | find/replace loop with fuel |
| C10 | hex tables |
| C11 | fold on code points; UTF-8 length preservation |
| C12 | utf8cpp encode/decode and UTF-16 surrogates on lists |
| C13 | integer arithmetic; POSIX/FILETIME is shown not to be an inverse (negation) |
| C14 | memory stream as list+cursor; refinement |
| C15 | CopyFrom over the stream model; end-of-source case is a counterexample |
| C16 | driver loop over an abstract streaming codec |
| C17, C18 | cache = array of optional (bytes, dirty, time) over a file; refinement to page array, disk invariant |
| C19 | database-level get_block(_for_write) |
| C20–C25, C29 | page store + object header; whole read, partial read, write, set_len with `ub` |
| C24 | 32-bit truncation explicit |
| C26, C27 | free-list page stack; delete_object frees the header page repeatedly (negation) |
| C28 | version counters state machine |
| C30–C32 | blob file as 256-byte blocks; chain predicate, write/delete/read |
| C33, C34 | layout fold, record byte splice |
| C35, C36, C40 | filters and searches over lists |
| C37 | edit state machine |
| C38 | bit-packed leaf page; round trip over numbers and byte lists |
| C39 | page walk with fuel |
| C41–C43 | tree serializer, parser state machine over a zipper |
| C44–C48 | container bytes |
| C49–C54 | list-level selection logic |
| C55 | header checks |
| C56 | the unmasking loop over one buffer that also holds the key; inverse of a positional XOR |
| C57, C58 | argument parser, dequote loop with fuel |
| C59 | the row-number lookup while editing, against the list of visible records |
| C60, C61 | insertion into and deletion from one index leaf, against the sorted list of entries |
| C62, C63 | version ranges and name patterns of the command line; the pattern language is matched by a small matcher |
| C64 | root object and classification of a database, against a layout of the root |
| C66, C67 | open containers (entries, map of names, flushing, reopening) over the block model; an invariant that relates them to the user's list of contents, kept by every operation |
| C65 | export of stored values over the stream model; both the in-memory and the temporary-file variant |
| C72 | the page-by-page loops of both formats over the page list; composition with `set_len` (C25) by the invariants `Rep`, `Opened80` |
| C73 | the template as an array of 256 entries for each byte, painted field by field; the page test and the search as loops over the file; repair over the page list; theorems by an invariant over the pages already looked at |
| C74 | data file, blob file and record count as one state, the memory of a record object as an arbitrary list of bytes, the indexes as a parameter with the law that they follow deletions; induction over the list of changed records, which comes from the session model of C37 |
| C75, C76 | the descent through branch pages on the bytes of the file; the index as rows of pages (`Spec.Rows`), each row being what the row above lists; induction over the rows, with an invariant for the part of a row below one entry |
| C77, C78 | the loops over names and hashes as functions on parsed values and tables of files; induction over the list, with the stream that is not cut as an argument |
| C79 | both loops over the tables; the saved files have the greatest number, which the second loop keeps; names by their first and last occurrences of marks |
| C80 | streams as a heap with deleted cells, reading and inflating as parameters that may fail with part of their output written; an invariant over histories of operations |
| C81 | the writer as functions on characters, values and index orders as parameters; a reader of the document written separately; induction over fields and records |
| C82 | both loops as in C52, with the buffer that is read and compared; the specification by filters over the whole history; induction over groups of records of an object, and over external files backwards |
| C83 | both functions over the model of objects and free pages; three files in a row by the frame of C72: each replacement leaves the pages of the others; the first occurrence of the section in UTF-8 is the first in characters |
| C84 | the loop over the files composed of the models of C80 (raw opening) and C66 (container); an invariant over the loop: the entries written so far, on disk; closing is flushing |
| C85 | the walk over the files, unpacking, container and tree composed of the models of C80, C66 and C41; the specification reads the metadata by paths of positions and numbers by their digits |
| C86 | a state of files, database and messages; the library is a parameter that keeps to the paths it is given; the runs of commands are specified by an inductive relation, the paths of each command by a table |
| C87 | the two loops over the pages with the list of open objects; what an object holds is the specification of C28 |
| C88 | deletion of the four objects (C27), then reading, changing and storing the root object (C20, C72), as functions on the same state; the search as in C87 |
| C89 | the functions of C72 and C88 in the order of the code; reading the variable without a value is `ub`; inversion of the run |
| C90 | the maps as sorted lists, the texts as the trees of C41, the container of C66; blobs, compression, checksums and random identifiers are parameters; refinement to the set of parts of C52 |
| C91 | `Table::init` on the tree of C41, names as in C37, the internal files as their contents (proved of the pages in `Pages.lean`); decision logic stated outright: opened exactly if acceptable |
| C92 | the reflected shift register of the library and the loop over the stream of C14; equal to the textbook division by the polynomial; detection from the injectivity of a shift |
| C93 | an open file as the memory stream of C14 and the positions of its streams; refinement of a list with cursors over histories |
| C94 | the two pointers to the `std::fstream`, its failure, position and size, over a file with access rights; refinement of an array with a place, and an exact condition for undefined behaviour |
| C95 | the pointers `self` of the entries as a tree beside the chain of each container; a relation of that tree and the user's, kept by every operation, over the invariant of C66 at every level |
| C96 | the container of C66 in memory and the file of C94, with the compression of C15 as a parameter whose decompressor stops at the end of a stream; an invariant saying when the file holds the container |
| C97 | the test function by function over the container of C66, the bracket text of C41 and the encodings of C10; streams above 10 MiB, which use temporary files, are left out; texts are tested exactly as their description says, records and tables by induction |
| C98 | the test function by function over the tables of C97 and the bracket text of C41; entries by induction, with the description of tables a list requires kept apart; the variable without a value is a parameter |
| C99 | a world of processes and one directory, with the streams of C94; an invariant over all schedules, with a specification of what one process should see; POSIX removal of open files |
| C100 | the whole function over the blobs of C32, masks of C56, values of C65, containers of C66 and files of C94; content of a value as an inductive specification; a directory tree for the values of a table |
| C101 | `replaceTREF`: the file of numbers, the map, the loops over tables, columns and records over the iterator of C35; the map read is the one written; exact condition for the call to return |
| C102 | `ConfigStorageDirectory` over the streams of C94 and a file system of files and directories with permissions; refinement to a map by induction over histories |
| C103 | objects of details, registrator and messenger over a map of files; the log as a function of the history; lines grouped back into messages |
| C104 | nodes as cells with pointers in a heap where use of a freed cell is undefined; refinement to a forest by an invariant; the parser on nodes refines the parser of values |
| C105 | the text as a list of lines; induction over the rows of the tree, with the leaf reader of C39/C74 for the pages |
| C106 | records as bytes, read with the field readers of C68; the loop of the constructor is `tableFiles` (C49) of the rows held; induction over the records |
| C107 | composition of C106 (records to files), C32 (blobs), C50 (names of a configuration), C80 (opening a file) and C84 (the container written is read back): `exportConfig` runs the models of all five on bytes |
| C108 | objects and buffers as cells in a heap where use of freed memory is undefined; invariant (doubly linked list, buffers hold contents, no buffer shared) kept by every operation; refinement to a list of objects |
| C109 | the loop that writes pages, cut after any page and within any page; the file then is a prefix of the new and the rest of the old contents (induction over the pages, on the invariant of C17); opening depends on 24 bytes and the size |
| C110 | rows, columns and pointers of the view over the heap of nodes of C104; laws of the view from its invariant, for every history and every parsed text |
| C111 | the loops transcribed; counting keys of a map, bounds by induction on the loop of units, lines of a text, a packing with its inverse as parameters |
| C112 | composition of C106 (table of files), C77/C78 (lists of hashes), C80 (opening files) and C84 (the container) |
| C113 | composition of C39 (walk of an index), C35 (records) and C68 (texts), with the text of a number proved from its stored bytes; large values over C30, C16 and C67 |
| C114 | refinement of the stack of commands to a history of values (invariant over all operations: every command undone gives the value before it); selections and searches by induction over the bytes; Qt's byte arrays and undo stack as documented |
| C115 | the writing of C93 over the copying of C15: what is written is given outright for every length and position; streams over another file and over the same file separately |
| C116 | on top of C80 and C84: the state of the streams is an invariant of every history, and the file is a function of names, times and raw contents alone; the time of day and the previous file are shown to be of no effect |
| C117 | the bytes that `flush` of C109 gives to the system are listed and shown to make the file what it becomes; then any list of some of them, by induction over the list |
| C118 | on top of C66 and C84: a relation between containers, that all old blocks, the directory and the file header are kept, holds of every new block by the refinement lemmas of C65; opening depends on these alone |
| C119 | on top of C118: writing over a block keeps its address, so the directory on the disk stays right; induction over the files with two views of the pages, one of the open container and one of the disk |
| C68–C71 | the conversions of field values (text, XML, bytes, keys) on records as byte lists; the value of a field is located by a small predicate on the record |

This table is refined as the model grows; see `MANIFEST.json` for the status.

## Axioms per theorem

P is `propext`, C is `Classical.choice`, Q is `Quot.sound`; names are relative to the namespace `Verif`.

<!-- axioms begin -->
* C01: PQ: `Decimal.packed_roundtrip`
* C02: CPQ: `Decimal.numeric_text_roundtrip_partial`, `Decimal.numeric_text_roundtrip_whole_partial`, `Decimal.numeric_overflow_saturates`; PQ: `Decimal.numeric_negative_text_is_lost`, `Decimal.numeric_fraction_with_precision_zero`, `Decimal.numeric_store_overflows_buffer`, `Decimal.numeric_leading_zeros_saturate`, `Decimal.empty_number_keeps`
* C03: CPQ: `Decimal.numeric_sort_key_order`; PQ: `Decimal.numeric_sort_key_overflow`
* C04: CPQ: `Decimal.date1C_roundtrip_partial`, `Decimal.date_text_roundtrip_partial`, `Decimal.date_order`; PQ: `Decimal.datetime_store_short`, `Decimal.short_date_zeros`, `Decimal.date_key_fits`
* C05: CPQ: `Decimal.numeric_decode_local`; PQ: `Decimal.date_decode_overreads`
* C06: CPQ: `Guid.eq_iff`, `Guid.gt_iff_lex`; PQ: `Guid.parse_as1C`, `Guid.parse_flat`, `Guid.as1C_injective`, `Guid.asMS_injective`, `Guid.text_shape`, `Guid.wrong_length_rejected`, `Guid.right_length_accepted`, `Guid.isEmpty_iff`
* C07: CPQ: `Base64.decode_encode`, `Base64.decode_noise`, `Base64.decode_filter`, `Base64.decodeString_encode`, `Base64.encode_whole_groups`
* C08: CPQ: `Text.xml_roundtrip_partial`, `Text.xml_no_special_partial`, `Text.xml_amp_starts_entity_partial`, `Text.xml_exact`, `Text.xml_second_occurrence_raw`, `Text.xml_broken_witness`
* C09: PQ: `Text.replace_all`, `Text.replace_first`, `Text.replace_self`, `Text.replace_empty_diverges`
* C10: CPQ: `Hex.hexstring_chars`, `Hex.two_hex_digits_iff`, `Hex.two_hex_digits_reject`, `Hex.from_hex_digit_value`; PQ: `Hex.hexstring_length`, `Hex.hexstring_injective`
* C100: CPQ: `SaveBlob.nothing_saved`, `SaveBlob.raw_saved`, `SaveBlob.content_saved_partial`, `SaveBlob.text_saved`, `SaveBlob.unwritable_reported_saved`, `SaveBlob.empty_saved_as_container`, `SaveBlob.inflated_twice`, `SaveBlob.container_undefined`, `SaveBlob.blobs_below`, `SaveBlob.only_first_saved`
* C101: CPQ: `Tref.map_read`, `Tref.returns_iff`, `Tref.never_ends`, `Tref.unknown_number_undefined`; PQ: `Tref.negative_undefined`, `Tref.number_reads_back`
* C102: P: `ConfigDir.read_only_is_empty`; PQ: `ConfigDir.directory_is_map_partial`, `ConfigDir.unwritable_reported_written`, `ConfigDir.missing_directory_reported_written`, `ConfigDir.copied_onto_itself_lost`
* C103: P: `Messages.newline_ambiguous`; PQ: `Messages.log_holds_messages`, `Messages.console_holds_messages`, `Messages.log_readable_partial`, `Messages.unwritable_lost`, `Messages.copies_repeat`; none: `Messages.progress_unseen`
* C104: CPQ: `Links.edits_keep_trees`, `Links.removal_exists`, `Links.destroyed_undefined`, `Links.child_by_number`, `Links.negative_number_undefined`, `Links.child_by_name`, `Links.indexing`, `Links.destroying_a_root`, `Links.paths_distinct`, `Links.path_is_positions_partial`, `Links.path_after_destruction`, `Links.text_is_text_of_tree`, `Links.parser_builds_tree`, `Links.parsed_tree_is_freed`, `Links.parse_then_text`
* C105: CPQ: `Index.dump_shows_index`, `Index.entry_line_tells`, `Index.leaf_text`, `Index.dump_loses_numbers`, `Index.dump_cycle_never_ends`, `Index.dump_no_index`, `Index.dump_bad_masks_ub`
* C106: CPQ: `Config.stored_files_found`, `Config.test_table_iff`, `Config.null_name_spoils`, `Config.great_part_throws`, `Config.types_not_tested`; PQ: `Config.file_head`
* C107: CPQ: `Config.Chain.config_exported_partial`, `Config.Chain.no_table_no_export`, `Config.Chain.last_point_lost`, `Config.Chain.point_merged`
* C108: CPQ: `Pool.objects_listed_partial`, `Pool.contents_served`, `Pool.pointer_stays`, `Pool.known_whatever_database`, `Pool.table_locks`, `Pool.failed_creation_undefined`, `Pool.failed_creation_walk`, `Pool.other_database_hides`; none: `Pool.unlocked_pointer_lost`, `Pool.clock_wraps`, `Pool.locks_not_counted`
* C109: CPQ: `Cache.crash_file`, `Cache.crash_history`, `Cache.crash_opens`, `Cache.crash_one_page`, `Cache.crash_refused`, `Cache.append_then_crash`; P: `Cache.crash_mixes`
* C11: CPQ: `Unicode.equalIC_iff`, `Unicode.equalIC_equivalence`, `Unicode.fold_length_idempotent`, `Unicode.lower_upper_agree`, `Unicode.equalIC_ignores_after_nul`, `Unicode.equalIC_invalid_throws`, `Unicode.endsWithIC_iff`; P: `Unicode.endsWithIC_cut_throws`
* C110: CPQ: `View.view_after_edits`, `View.view_of_text`, `View.value_shown`, `View.shown_short`, `View.shown_line`, `View.shown_first_line`, `View.shown_wrong_line`, `View.bytes_without_prefix`
* C111: CPQ: `View.catalog_shown`, `View.catalog_hides`, `View.size_shown`; P: `View.list_read_back`, `View.list_repeats`; PQ: `View.size_undefined`, `View.value_unpacked`, `View.value_left_packed`; none: `View.container_by_start`
* C112: CPQ: `Config.Ext.extension_exported_partial`, `Config.Ext.unsaved_extension_exported_partial`, `Config.Ext.no_extension_table`, `Config.Ext.extension_refused`, `Config.Ext.list_replaced`, `Config.Ext.no_saved_table`
* C113: CPQ: `View.grid_rows`, `View.null_cell`, `View.cell_shows_value_partial`, `View.edited_as_shown`, `View.removed_in_italics`, `View.numbers_to_the_right`, `View.nothing_outside`, `View.large_refused`, `View.large_text_partial`, `View.large_container`, `View.empty_value_is_a_container`, `View.malformed_text_escapes`; P: `View.columns`
* C114: CPQ: `View.Hex.selected_bytes`, `View.Hex.selection_removed`, `View.Hex.search_backward_partial`, `View.Hex.found_selected_partial`, `View.Hex.overwriting_the_end_not_undone`; PQ: `View.Hex.history_kept`, `View.Hex.all_undone`, `View.Hex.search_forward`, `View.Hex.search_of_a_byte_stays`; none: `View.Hex.pasting_misplaced`, `View.Hex.search_back_wraps`
* C115: CPQ: `FileStream.stored_whole`, `FileStream.stored_part_partial`, `FileStream.stored_from_file`, `FileStream.nothing_left_stores_zeros`, `FileStream.own_stream_misplaced`, `FileStream.own_stream_doubles`; P: `FileStream.stored_beyond`; none: `FileStream.no_bytes_stores_all`
* C116: CPQ: `Config.Again.same_every_time`, `Config.Again.every_export_partial`, `Config.Again.failed_reading_stays`, `Config.Again.second_export_truncated`
* C117: CPQ: `Cache.flush_reached`, `Cache.power_opens`, `Cache.power_history`, `Cache.power_refused`; PQ: `Cache.power_mix`, `Cache.power_keeps`, `Cache.power_out_of_order`
* C118: CPQ: `Container.added_lost_partial`, `Config.Whole.export_cut_short`; P: `Container.removed_comes_back`
* C119: CPQ: `Container.replaced_kept_partial`
* C12: CPQ: `Unicode.utf16_to_utf8`, `Unicode.utf8_to_utf16`, `Unicode.utf16_roundtrip`, `Unicode.utf16_accepts_only_wellformed`, `Unicode.utf8_accepts_only_wellformed`
* C13: CPQ: `Time.v8time_roundtrip_partial`, `Time.v8time_not_roundtrip`; PQ: `Time.posix_filetime_shift`, `Time.posix_filetime_not_inverse`, `Time.zone_moves_file_time`; none: `Time.posix_from_padding`, `Time.posix_depends_on_padding`
* C14: CPQ: `Stream.memory_stream_is_array`; PQ: `Stream.failed_seek_moves`, `Stream.negative_seek_accepted`, `Stream.vec_read_rest`, `Stream.vec_write_overrun`
* C15: CPQ: `Stream.copy_appends_partial`, `Stream.copy_zero_copies_all`, `Stream.copy_exhausted_writes_zeros`, `Stream.file_write_overlays`; P: `Stream.file_read_exact`; PQ: `Stream.file_write_lost_after_short_read`
* C16: CPQ: `Zlib.deflate_correct_partial`, `Zlib.deflate_multiple_fails`, `Zlib.deflate_inflate_partial`, `Zlib.Example.multiple_of_chunk_is_lost`; PQ: `Zlib.inflate_correct`, `Zlib.inflate_truncated_silent`
* C17: CPQ: `Cache.cache_transparent`; P: `Cache.write_without_read_depends_on_cache`; PQ: `Cache.put_weak`, `Object.store_is_cache_store`, `Object.fetch_is_cache_fetch`
* C18: CPQ: `Cache.disk_is_last_flush`, `Cache.flush_durable`; PQ: `Cache.clean_keeps_modified`
* C19: CPQ: `Cache.append_one_page`, `Cache.reachable_inv`; PQ: `Cache.append_with_read_is_ub`, `Cache.append_weak`
* C20: CPQ: `Object.read_whole_80`, `Object.partial_is_slice_80`; PQ: `Object.read_range_80`
* C21: CPQ: `Object.read_range_838_one`, `Object.read_range_838_two`, `Object.read_whole_838`
* C22: P: `Object.read_outside_refused_partial`, `Object.read_outside_wraps`; PQ: `Object.read_outside_cached_unchecked`, `Object.read_nothing_is_ub`
* C23: CPQ: `Object.write_range_80`, `Object.write_range_838`; P: `Object.write_readonly`
* C24: CPQ: `Object.file_offset_correct_partial`; P: `Object.file_offset_wraps`
* C25: CPQ: `Object.set_len_grow_80_partial`, `Object.set_len_shrink_80_partial`, `Object.set_len_80_partial`, `Object.store_80_partial`, `Object.store_history_80_partial`, `Object.set_len_grow_overflows`, `Object.set_len_grow_838_one_partial`, `Object.set_len_838_one_overflows`, `Object.init_opened_838`, `Object.set_len_grow_838_two_partial`, `Object.set_len_grow_838_cross_partial`, `Object.store_838_two_partial`, `Object.store_838_cross_partial`, `Object.store_history_838_two_partial`; P: `Object.grow_838_overwrites_page_zero`, `Object.grow_838_keeps_old_count`, `Object.grow_838_empty_first_table`; PQ: `Object.opened_reopens`, `Object.set_len_zero_never_returns`, `Object.set_len_838_from_empty`, `Object.set_len_838_shrink_two_levels`, `Object.opened_838_reopens`; none: `Object.max_length_wraps`
* C26: CPQ: `Object.free_list_history_partial`, `Object.alloc_is_fresh`, `Object.free_list_reopens`, `Object.release_overflows_vector`; P: `Object.release_then_alloc`; PQ: `Object.release_838_breaks_root`, `Object.alloc_838_appends`
* C27: CPQ: `Object.delete_one_table_partial`, `Object.delete_once_iff`, `Object.delete_calls_838`, `Object.delete_838_once_iff`, `Object.delete_838_foreign`, `Object.delete_838_two_level`; P: `Object.released_twice_given_twice`, `Object.delete_refuses_service_objects`; PQ: `Object.delete_calls`, `Object.delete_838_ub`
* C28: PQ: `Object.record_versions_increase`, `Object.stored_version`, `Object.reported_version_is_stale`
* C29: CPQ: `Object.save_to_file_838`; PQ: `Object.save_to_file_80`
* C30: CPQ: `Blob.store_blob_partial`, `Blob.read_back_partial`, `Blob.blob_history_partial`, `Blob.store_chars`, `Blob.store_chars_reads_back_wrong`; P: `Blob.store_without_file`, `Blob.read_null_start`; PQ: `Blob.store_chars_overflows`, `Blob.read_empty`
* C31: CPQ: `Blob.store_blob_partial`, `Blob.delete_blob_partial`, `Blob.blob_history_partial`; PQ: `Blob.offset_wraps`, `Blob.full_file_store`
* C32: CPQ: `Blob.read_back_partial`, `Blob.buffer_read_overflows_blob`; P: `Blob.read_object_exact`, `Blob.table_read_ignores_length`; PQ: `Blob.read_bounded`, `Blob.read_terminates_partial`, `Blob.empty_cycle_never_ends`, `Blob.buffer_read_safe`, `Blob.stream_read_safe`
* C33: CPQ: `Record.layout_disjoint_partial`; P: `Record.negative_length_overlaps`; PQ: `Record.layout_partition_partial`, `Record.table_layout_partial`, `Record.hidden_version_has_no_place`, `Record.record_at_least_five`
* C34: CPQ: `Record.set_data_partial`, `Record.set_data_nullable_spills`, `Record.set_value`, `Record.set_field_of_table_partial`; P: `Record.assign_free`; PQ: `Record.set_data_nullable_ub`, `Record.set_null_field`, `Record.assign_table`; none: `Record.set_on_null_is_lost`
* C35: CPQ: `Record.physNum_iff`, `Record.scan_visits_live`, `Record.live_sorted`; PQ: `Record.record_index_lists_live`, `Record.record_behind_refused_partial`; none: `Record.record_number_wraps`
* C36: CPQ: `Record.lookup_first`, `Record.hidden_field_not_found`
* C37: CPQ: `Record.edit_session_partial`, `Record.cancel_restores`, `Record.field_marks`; P: `Record.begin_refused`, `Record.uncounted_record_wraps`, `Record.first_new_without_mark_ub`; PQ: `Record.put_needs_begin`, `Record.edit_existing_ub`
* C38: CPQ: `Index.unpack_pack_partial`, `Index.pack_sorted`, `Index.full_page_unreadable`; P: `Index.primary_end_fine`, `Index.duplicate_end_reads_past`; PQ: `Index.pack_keeps_links`, `Index.recBytes_isWidth`, `Index.isWidth_unique`
* C39: CPQ: `Index.walk_lists`, `Index.walk_lists_records`, `Index.walk_empty`, `Index.packed_isLeaf`, `Index.walk_cycle_diverges`; P: `Index.numRec_beyond_ub`
* C40: CPQ: `Record.indexed_scan`, `Record.indexed_scan_all`
* C41: PQ: `Tree.print_parse_partial`, `Tree.print_injective`; none: `Tree.empty_list_lost`, `Tree.single_empty_lost`, `Tree.second_root_lost`, `Tree.leading_blank_lost`
* C42: PQ: `Tree.accepted_is_balanced_partial`, `Tree.stream_accepted_is_balanced_partial`, `Tree.parse_never_leaves_tree`; none: `Tree.unbalanced_accepted`, `Tree.unbalanced_after_nul`
* C43: CPQ: `Tree.classify_correct`, `Tree.type_unique`; P: `Tree.classify_nul`; PQ: `Tree.quoted_string_recovered`, `Tree.printed_string_is_quoted`
* C44: PQ: `Container.header_roundtrip_partial`, `Container.header_set`, `Container.header_large_unreadable`
* C45: CPQ: `Container.create_block`, `Container.block_reads`, `Container.first_block`
* C46: CPQ: `Container.container_history_partial`, `Container.rewrite_block_partial`, `Container.release_block_partial`, `Container.step_rep`; none: `Container.rewrite_of_empty_block_destroys_neighbour`
* C47: CPQ: `Entry.entries_history_partial`, `Entry.get_file_finds`, `Entry.finds_unique`, `Entry.create_entry`, `Entry.delete_entry`, `Entry.catalog_delete_undefined`
* C48: CPQ: `Entry.entry_header_partial`, `Entry.modification_time_lost`
* C49: CPQ: `Config.FilesTheorems.content_correct`, `Config.FilesTheorems.files_lookup`; PQ: `Config.FilesTheorems.readBlob_zero`, `Config.FilesTheorems.negative_part_ub`
* C50: CPQ: `Config.SelectTheorems.choice_partial`, `Config.SelectTheorems.update_variant`, `Config.SelectTheorems.plain_variant`, `Config.SelectTheorems.listed_update_loses`, `Config.SelectTheorems.new_loses`; PQ: `Config.SelectTheorems.shifted_guid`
* C51: CPQ: `Config.PathTheorems.read_write_same`; P: `Config.PathTheorems.leading_separator`; PQ: `Config.PathTheorems.read_addresses`, `Config.PathTheorems.plain_path_partial`, `Config.PathTheorems.slash_same`, `Config.PathTheorems.directory_missed`, `Config.PathTheorems.written_elsewhere`, `Config.PathTheorems.write_read_agree`, `Config.PathTheorems.table_top_level`, `Config.PathTheorems.is_path`, `Config.PathTheorems.write_addresses`
* C52: CPQ: `Depot.Theorems.export_correct`, `Depot.Theorems.removed_absent`; PQ: `Depot.PackTheorems.store_partial`, `Depot.PackTheorems.broken_data_mixed`; none: `Depot.Theorems.no_history_ub`
* C53: CPQ: `Db.version_relative`, `Db.version_zero_newest`, `Db.version_positive_unchecked`; P: `Db.version_min_ub`
* C54: CPQ: `Depot.PackTheorems.lookup_partial`, `Depot.PackTheorems.index_roundtrip`; PQ: `Depot.PackTheorems.empty_object_wrong`, `Depot.PackTheorems.empty_object_wrong_example`, `Depot.PackTheorems.short_hash_ub`, `Value.short_index`
* C55: CPQ: `Db.open_only_consistent`; P: `Db.open_short_ub`; PQ: `Db.open_consistent`, `Db.open_zero_page_ub`
* C56: CPQ: `Value.unmask_partial`, `Value.empty_key_zeroes`, `Value.users_rows`; PQ: `Value.long_key_ub`, `Value.cut_key_ub`
* C57: CPQ: `Cli.parse_partial`, `Cli.reads_total`, `Cli.reads_unique`, `Cli.isTrueString_iff`, `Cli.empty_argument_ub`, `Cli.bad_switch_fails`, `Cli.bf_takes_file`, `Cli.OptionTheorems.options_correct`, `Cli.OptionTheorems.help_stops`
* C58: P: `Cli.dequote_enclosed_diverges`; PQ: `Cli.dequote_partial`, `Cli.dequote_enclosed_partial`, `Cli.dequote_plain_partial`, `Cli.dequote_empty_ub`, `Cli.dequote_trailing_diverges`, `Cli.dequote_strips_single`
* C59: PQ: `Record.row_numbers`, `Record.rows_distinct`
* C60: CPQ: `Index.leaf_insert_partial`, `Index.halves_linked`, `Index.split_root_hides_entries`, `Index.new_root_offset_as_number`; P: `Index.insert_equal_last_ub`, `Index.same_entry_accepted`; PQ: `Index.insert_refused`
* C61: CPQ: `Index.leaf_delete_partial`, `Index.delete_fits`, `Index.delete_wrecks_page`; PQ: `Index.leaf_delete_absent`
* C62: CPQ: `Cli.range_single_partial`, `Cli.range_begin_cut`, `Cli.range_begin_wrong`, `Cli.version_overflow_throws`, `Cli.range_without_begin`, `Cli.range_digit_begin`; P: `Cli.blanks_skipped`
* C63: CPQ: `Cli.select_partial`, `Cli.select_empty`, `Cli.dot_matches_anything`
* C64: CPQ: `Db.classify_iff`; P: `Db.root_overrun_ub`; PQ: `Db.root_tables`
* C65: CPQ: `Value.export_content_partial`, `Value.export_plain`, `Value.export_unpackable`, `Value.export_head_only`, `Value.empty_content_exports_all`, `Value.negative_length_ub`, `Value.export_cut`, `Value.large_content_appended`; PQ: `Value.large_keeps_blob`, `Value.copy_at_end_zeros`
* C66: CPQ: `Container.named_contents_partial`, `Container.zip_packs`, `Container.zip_multiple_not_stored`; P: `Container.open_empty`, `Container.created_entry_breaks_container`, `Container.empty_content_breaks_entry`; none: `Container.plain_packs`
* C67: CPQ: `Container.written_recognised_partial`; P: `Container.recognising_defined`, `Container.short_file_throws`; PQ: `Container.recognising_throws_iff`, `Container.ff_file_throws`
* C68: CPQ: `Field.null_text`, `Field.null_string_throws`, `Field.value_string`, `Field.bool_text`, `Field.number_text`, `Field.date_text_partial`, `Field.date_text_reads_past`, `Field.binary_text_exact`, `Field.binary_text_has_nul`, `Field.reference_text`, `Field.identifier_text`, `Field.char_text`, `Field.varchar_text`, `Field.varchar_count_reads_past`, `Field.version_text`, `Field.version8_text`, `Field.large_text`, `Field.large_text_detailed`, `Field.varbinary_text_exact`, `Field.text_local`, `Field.stored_number_text`; P: `Field.manager_guid`
* C69: CPQ: `Field.entry_null`, `Field.entry_bool`, `Field.entry_number_partial`, `Field.entry_date_partial`, `Field.entry_refused`, `Field.entry_fits`, `Field.entry_binary_wrong`, `Field.entry_identifier_wrong`, `Field.entry_string_reads_past`, `Field.entry_string_empty`, `Field.entry_binary_short`
* C70: CPQ: `Field.null_xml`, `Field.null_xml_string_throws`, `Field.plain_xml`, `Field.string_xml_partial`, `Field.string_xml_second`, `Field.version_xml`, `Field.memo_xml_partial`, `Field.text_xml_cut`, `Field.text_xml_reads_past`, `Field.image_xml`, `Field.image_xml_nul`, `Field.date_xml_partial`, `Field.empty_date_xml`, `Field.date_xml_reads_past`
* C71: CPQ: `Field.plain_key`, `Field.number_key_order`, `Field.nullable_key`, `Field.next_key_overwrites`, `Field.null_key`, `Field.string_record_key`, `Field.record_key_place`, `Field.record_key_ignores_value`, `Field.record_key_reads_past`
* C72: CPQ: `Object.set_whole_80_partial`, `Object.set_whole_80_loses_last_page`, `Object.set_whole_80_wrong`, `Object.set_whole_838_partial`; P: `Object.set_whole_refused`; PQ: `Object.set_whole_80_empty_never_returns`, `Object.set_whole_838_from_empty`
* C73: CPQ: `Template.template_exact`, `Template.laid_of_layout`, `Template.test_page_exact`, `Template.valid_table_fits`, `Template.repair_partial`, `Template.repair_restores_partial`, `Template.removed_never_fits`, `Template.free_list_never_fits`, `Template.short_records_never_fit`, `Template.lost_placement_page_ub`; PQ: `Template.repair_never_returns`
* C74: CPQ: `Record.delete_record_partial`, `Record.end_of_deletions_partial`, `Record.insert_reads_memory`, `Record.second_insert_throws`; P: `Record.new_place_reused`, `Record.update_never_returns`; PQ: `Record.delete_long_ub`, `Record.deleted_place_is_lost`, `Record.nullable_blob_start`, `Record.delete_nullable_blob_throws`, `Record.insert_stores_memory`, `Record.insert_ub`
* C75: CPQ: `Index.delete_from_index_partial`, `Index.delete_then_walk_partial`, `Index.walk_index`, `Index.delete_last_entry_frees_root`; P: `Index.delete_misses_repeated_key`, `Index.delete_overlapping_ub`
* C76: CPQ: `Index.insert_into_index_partial`, `Index.insert_then_walk_partial`, `Index.insert_after_last_removed_ub`; P: `Index.split_loses_leaves`, `Index.split_below_full_page_ub`
* C77: CPQ: `Config.open_by_hashes_partial`, `Config.shorter_hash_refused`, `Config.one_list_refused`, `Config.no_version_refused`
* C78: CPQ: `Config.open_unsaved_partial`, `Config.saved_refused`, `Config.name_without_hash_ub`, `Config.short_name_refused`, `Config.known_name_skipped`
* C79: CPQ: `Config.open_edited_partial`, `Config.saved_wins`, `Config.ids_read`, `Config.saved_twice_refused`, `Config.extension_lost`, `Config.new_lost`, `Config.update_lost`, `Config.deleted_stays`, `Config.long_count_ub`; PQ: `Config.leading_point_kept`
* C80: CPQ: `Config.Opening.opening_partial`, `Config.Opening.packed_iff`, `Config.Opening.reopened_short`, `Config.Opening.reopened_short_packed`, `Config.Opening.unpacked_leaks`, `Config.Opening.empty_name_ub`
* C81: CPQ: `Export.export_reads_partial`, `Export.first_blob`, `Export.all_loses_records`, `Export.blobs_nested`, `Export.junk_refuses`, `Export.raw_value_unreadable`; P: `Export.repeated_name`
* C82: CPQ: `Depot.Part.save_part_partial`, `Depot.Part.missing_version_refused`, `Depot.Part.either_order`, `Depot.Part.changed_object_empty`, `Depot.Part.later_record_hides_data`, `Depot.Part.list_below_database`, `Depot.Part.layout_of_later_row`, `Depot.Part.no_history_ub`; P: `Depot.Part.changed_object_ub`, `Depot.Part.changed_object_of_another`
* C83: CPQ: `Object.Transfer.import_export_80_partial`, `Object.Transfer.import_creates_80_partial`, `Object.Transfer.import_838_wrong_length`; P: `Object.Transfer.export_writes`, `Object.Transfer.import_without_root`; PQ: `Object.Transfer.root_record`, `Object.Transfer.import_empty_never_returns`
* C84: CPQ: `Config.Whole.saved_configuration_partial`, `Config.Whole.modified_lost`, `Config.Whole.names_padded`, `Config.Whole.not_ready`; PQ: `Config.Whole.open_modified`
* C85: CPQ: `Vendor.listed_partial`, `Vendor.damaged_hides_all`, `Vendor.damaged`, `Vendor.no_version`, `Vendor.listed_twice`, `Vendor.short_count_ub`, `Vendor.nameless`, `Vendor.saved_partial`, `Vendor.same_name_overwritten`, `Vendor.not_created_reported_saved`
* C86: CPQ: `App.no_commands`, `App.help_only`, `App.no_database`, `App.missing_database`, `App.not_opened`, `App.commands_in_turn`, `App.messages`, `App.not_silent`, `App.only_named_files`, `App.saved_where`, `App.save_commands`, `App.saved_nowhere`, `App.saved_not_infobase`, `App.vendor_inside_partial`, `App.vendor_escapes`, `App.sizes_partial`, `App.sizes_not_created`, `App.log_deletes_database`, `App.depot_part_saved`, `App.depot_config_saved`, `App.depot_no_version`; PQ: `App.line_unique`, `App.sizes_negative`
* C87: CPQ: `Lost.find_partial`, `Lost.save_partial`, `Lost.fileName_eq`, `Lost.foreign_hides`, `Lost.beside`, `Lost.damaged_stops`, `Lost.none_838`, `Lost.nothing_saved_838`, `Lost.mark_838_ub`
* C88: CPQ: `Tables.delete_files_partial`, `Tables.drop_from_list_partial`, `Tables.delete_table_partial`, `Tables.delete_readonly`, `Tables.restore_partial`; P: `Tables.deleted_returns`, `Tables.unreadable_skipped`; PQ: `Tables.absent_drops_last`
* C89: CPQ: `Tables.create_loses`; P: `Tables.create_ub`, `Tables.create_never_lists`, `Tables.create_only_removes`, `Tables.create_passes_over`; PQ: `Tables.create_exported_undefined`
* C90: CPQ: `Depot.File.Theorems.saved_depot_partial`, `Depot.File.Theorems.snapshot_saved`, `Depot.File.Theorems.snapshot_iff`, `Depot.File.Theorems.header_iff`, `Depot.File.Theorems.missing_data`, `Depot.File.Theorems.depot_format`, `Depot.File.Theorems.snapshot_names`, `Depot.File.Theorems.plain_maker_text`, `Depot.File.Theorems.saved_old_depot_partial`; PQ: `Depot.File.Theorems.config_version`
* C91: CPQ: `TableOpen.open_table`, `TableOpen.open_text`, `TableOpen.opened_acceptable`, `TableOpen.unacceptable_refused`, `TableOpen.open_defined`, `TableOpen.not_a_description`, `TableOpen.opened_from_description`, `TableOpen.description_unique`, `TableOpen.index_fields_exist`, `TableOpen.records_inside`, `TableOpen.big_data_refused`, `TableOpen.cyrillic_field_refused`, `TableOpen.huge_undefined`, `TableOpen.get_data_838`; PQ: `TableOpen.far_free_page_passes`, `TableOpen.get_data_80`
* C92: CPQ: `Crc.crc_of_stream`, `Crc.crc_detects_burst`, `Crc.crc_detects_change`, `Crc.damaged_snapshot_not_used`; PQ: `Crc.crc_misses_change`
* C93: CPQ: `FileStream.streams_share_file_partial`, `FileStream.copy_takes_whole`; P: `FileStream.destroy_with_stream`; PQ: `FileStream.seek_end_passes_end`, `FileStream.seek_end_ignores`, `FileStream.seek_before_start`, `FileStream.read_after_shortening`, `FileStream.reported_position_is_zero`
* C94: CPQ: `Handle.save_dir_undefined`; P: `Handle.save_entry_undefined_anywhere`; PQ: `Handle.file_is_array_partial`, `Handle.new_file_is_array_partial`, `Handle.object_stream_partial`, `Handle.closing_undefined_iff`, `Handle.closed_then_destroyed`, `Handle.write_after_short_read_lost`, `Handle.unwritable_file_reads_empty`, `Handle.save_entry_undefined`, `Handle.empty_object_undefined`
* C95: CPQ: `Nested.nested_contents_partial`
* C96: CPQ: `Cfu.update_file_partial`, `Cfu.changes_to_existing_lost`, `Cfu.flushed_while_let_go_lost`, `Cfu.multiple_not_saved`; PQ: `Cfu.unused_file_is_no_container`
* C97: CPQ: `Format.text_tested_partial`, `Format.passed_is_text`, `Format.text_no_container`, `Format.good_infobase_passes_partial`, `Format.passed_infobase`, `Format.tested_or_reported`, `Format.checkFields_spec`, `Format.checkSchema_spec`, `Format.never_false`, `Format.container_never_passes`, `Format.sound_container_undefined`, `Format.broken_inner_passes`, `Format.empty_container_reported`, `Format.cyrillic_reported`, `Format.excluded_reported`, `Format.files_not_tested`, `Format.empty_sheet_reported`
* C98: CPQ: `TableList.list_tested_partial`, `TableList.tables_tested_partial`, `TableList.no_list_reported`, `TableList.usual_list_reported`, `TableList.fields_not_tested`, `TableList.short_entry_undefined`, `TableList.unreadable_list_reported`, `TableList.wrong_fields_reported`
* C99: PQ: `Temp.undisturbed_streams_partial`, `Temp.exit_removes_all`, `Temp.leftovers_removed`, `Temp.closed_kept_alone`, `Temp.lost_after_exit`, `Temp.closed_lost_after_start`, `Temp.files_stay`
<!-- axioms end -->

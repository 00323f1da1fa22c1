{"claims": [
  {"property": "C01", "status": "proved", "theorems": ["Verif.Decimal.packed_roundtrip"], "note": "Every digit list, precision and sign."},
  {"property": "C02", "status": "partial", "theorems": ["Verif.Decimal.numeric_text_roundtrip_partial", "Verif.Decimal.numeric_text_roundtrip_whole_partial", "Verif.Decimal.numeric_overflow_saturates", "Verif.Decimal.numeric_negative_text_is_lost", "Verif.Decimal.numeric_fraction_with_precision_zero", "Verif.Decimal.numeric_store_overflows_buffer", "Verif.Decimal.numeric_leading_zeros_saturate", "Verif.Decimal.empty_number_keeps"], "note": "Holds for unsigned digit texts that fit; negative text, fraction with precision 0 and leading zeros are proved counterexamples."},
  {"property": "C03", "status": "proved", "theorems": ["Verif.Decimal.numeric_sort_key_order", "Verif.Decimal.numeric_sort_key_overflow"], "note": "For numbers of at most 127 digits; above that the key buffer overflows (numeric_sort_key_overflow)."},
  {"property": "C04", "status": "partial", "theorems": ["Verif.Decimal.date1C_roundtrip_partial", "Verif.Decimal.date_text_roundtrip_partial", "Verif.Decimal.date_order", "Verif.Decimal.datetime_store_short", "Verif.Decimal.short_date_zeros", "Verif.Decimal.date_key_fits"], "note": "Round trip needs 3 readable bytes after the field because the decoder over-reads."},
  {"property": "C05", "status": "partial", "theorems": ["Verif.Decimal.numeric_decode_local", "Verif.Decimal.date_decode_overreads"], "note": "Numbers decode from their own bytes; dates read 10 bytes of a 7-byte field (negation proved)."},
  {"property": "C06", "status": "proved", "theorems": ["Verif.Guid.parse_as1C", "Verif.Guid.parse_flat", "Verif.Guid.as1C_injective", "Verif.Guid.asMS_injective", "Verif.Guid.text_shape", "Verif.Guid.wrong_length_rejected", "Verif.Guid.right_length_accepted", "Verif.Guid.eq_iff", "Verif.Guid.isEmpty_iff", "Verif.Guid.gt_iff_lex"], "note": "Any text of length 32 or 36 is accepted: hex digits are not checked (right_length_accepted)."},
  {"property": "C07", "status": "proved", "theorems": ["Verif.Base64.decode_encode", "Verif.Base64.decode_noise", "Verif.Base64.decode_filter", "Verif.Base64.decodeString_encode", "Verif.Base64.encode_whole_groups"], "note": "All byte sequences, line lengths and noise."},
  {"property": "C08", "status": "partial", "theorems": ["Verif.Text.xml_roundtrip_partial", "Verif.Text.xml_no_special_partial", "Verif.Text.xml_amp_starts_entity_partial", "Verif.Text.xml_exact", "Verif.Text.xml_second_occurrence_raw", "Verif.Text.xml_broken_witness"], "note": "The full claim is false of the code: only the first occurrence of each special character is escaped (xml_second_occurrence_raw, xml_broken_witness). Proved for texts with at most one of each."},
  {"property": "C09", "status": "proved", "theorems": ["Verif.Text.replace_all", "Verif.Text.replace_first", "Verif.Text.replace_self", "Verif.Text.replace_empty_diverges"], "note": "Includes the divergence for an empty pattern."},
  {"property": "C10", "status": "proved", "theorems": ["Verif.Hex.hexstring_length", "Verif.Hex.hexstring_injective", "Verif.Hex.hexstring_chars", "Verif.Hex.two_hex_digits_iff", "Verif.Hex.two_hex_digits_reject", "Verif.Hex.from_hex_digit_value"], "note": ""},
  {"property": "C100", "status": "partial", "theorems": ["Verif.SaveBlob.nothing_saved", "Verif.SaveBlob.raw_saved", "Verif.SaveBlob.content_saved_partial", "Verif.SaveBlob.text_saved", "Verif.SaveBlob.unwritable_reported_saved", "Verif.SaveBlob.empty_saved_as_container", "Verif.SaveBlob.inflated_twice", "Verif.SaveBlob.container_undefined", "Verif.SaveBlob.blobs_below", "Verif.SaveBlob.only_first_saved"], "note": "With unpacking proved for values of at most 10 MiB that are neither containers nor nothing compressed; the remaining cases are shown to be undefined or to give something else. Only the first value of a table is saved (proved in general)."},
  {"property": "C101", "status": "partial", "theorems": ["Verif.Tref.map_read", "Verif.Tref.returns_iff", "Verif.Tref.never_ends", "Verif.Tref.unknown_number_undefined", "Verif.Tref.negative_undefined", "Verif.Tref.number_reads_back"], "note": "The map is read right. The replacement itself does not happen in this version: proved is that the call returns exactly if there is nothing to replace, and what it does otherwise (never ends, or undefined)."},
  {"property": "C102", "status": "partial", "theorems": ["Verif.ConfigDir.directory_is_map_partial", "Verif.ConfigDir.unwritable_reported_written", "Verif.ConfigDir.missing_directory_reported_written", "Verif.ConfigDir.read_only_is_empty", "Verif.ConfigDir.copied_onto_itself_lost"], "note": "Proved for names that can be used (a writable file or nothing, in a directory where files can be made) and no file copied onto itself; the negations show what happens otherwise."},
  {"property": "C103", "status": "partial", "theorems": ["Verif.Messages.log_holds_messages", "Verif.Messages.console_holds_messages", "Verif.Messages.log_readable_partial", "Verif.Messages.newline_ambiguous", "Verif.Messages.unwritable_lost", "Verif.Messages.copies_repeat", "Verif.Messages.progress_unseen"], "note": "Proved for a compiler that makes no copies of the object of details (as compilers do), a log file that can be written, and, for reading the log back, texts without newlines, no tab before a message and no '=' in names of details; the negations show what happens otherwise."},
  {"property": "C104", "status": "partial", "theorems": ["Verif.Links.edits_keep_trees", "Verif.Links.removal_exists", "Verif.Links.destroyed_undefined", "Verif.Links.child_by_number", "Verif.Links.negative_number_undefined", "Verif.Links.child_by_name", "Verif.Links.indexing", "Verif.Links.destroying_a_root", "Verif.Links.paths_distinct", "Verif.Links.path_is_positions_partial", "Verif.Links.path_after_destruction", "Verif.Links.text_is_text_of_tree", "Verif.Links.parser_builds_tree", "Verif.Links.parsed_tree_is_freed", "Verif.Links.parse_then_text"], "note": "Agreement of the links with the described trees after any history, lookups, texts, destruction and the parser are proved; the path names the position only while nothing was destroyed, and the negation is proved for a history with destruction."},
  {"property": "C105", "status": "partial", "theorems": ["Verif.Index.dump_shows_index", "Verif.Index.entry_line_tells", "Verif.Index.leaf_text", "Verif.Index.dump_loses_numbers", "Verif.Index.dump_cycle_never_ends", "Verif.Index.dump_no_index", "Verif.Index.dump_bad_masks_ub"], "note": "Proved of well-formed indexes (Spec.Tree). Missing: numbers are written as single bytes, so the text does not tell them (dump_loses_numbers); damaged indexes may loop or be undefined."},
  {"property": "C106", "status": "proved", "theorems": ["Verif.Config.stored_files_found", "Verif.Config.test_table_iff", "Verif.Config.file_head", "Verif.Config.null_name_spoils", "Verif.Config.great_part_throws", "Verif.Config.types_not_tested"], "note": "From the bytes of the records, through the readers of fields, to contents, name and times of each file. The conversion of the fourteen digits of a time to a file time is a parameter; times have at least three bytes behind them in the record, which the fields after them guarantee. null_name_spoils, great_part_throws and types_not_tested show what the hypotheses exclude."},
  {"property": "C107", "status": "partial", "theorems": ["Verif.Config.Chain.config_exported_partial", "Verif.Config.Chain.no_table_no_export", "Verif.Config.Chain.last_point_lost", "Verif.Config.Chain.point_merged"], "note": "Proved end to end for names that stand for themselves (no mark of a dynamic update, extension neither empty nor 'new') and containers below 2 GB. Missing: names with a point at the end, which the code confuses (last_point_lost, point_merged)."},
  {"property": "C108", "status": "partial", "theorems": ["Verif.Pool.objects_listed_partial", "Verif.Pool.contents_served", "Verif.Pool.pointer_stays", "Verif.Pool.known_whatever_database", "Verif.Pool.table_locks", "Verif.Pool.failed_creation_undefined", "Verif.Pool.failed_creation_walk", "Verif.Pool.other_database_hides", "Verif.Pool.unlocked_pointer_lost", "Verif.Pool.clock_wraps", "Verif.Pool.locks_not_counted"], "note": "Proved for all histories in which every construction succeeds; after a failed one the code is undefined (proved in general). How pages are read and written is C20 to C27."},
  {"property": "C109", "status": "partial", "theorems": ["Verif.Cache.crash_file", "Verif.Cache.crash_history", "Verif.Cache.crash_opens", "Verif.Cache.crash_one_page", "Verif.Cache.crash_refused", "Verif.Cache.append_then_crash", "Verif.Cache.crash_mixes"], "note": "the exact contents at every crash point are proved, and that the file opens without appends; the code violates atomicity: an append cut short makes the file unreadable (crash_refused, append_then_crash), several changed pages may be mixed (crash_mixes). A crash of the machine, where writes may be reordered, is not modelled"},
  {"property": "C11", "status": "proved", "theorems": ["Verif.Unicode.equalIC_iff", "Verif.Unicode.equalIC_equivalence", "Verif.Unicode.fold_length_idempotent", "Verif.Unicode.lower_upper_agree", "Verif.Unicode.equalIC_ignores_after_nul", "Verif.Unicode.equalIC_invalid_throws", "Verif.Unicode.endsWithIC_iff", "Verif.Unicode.endsWithIC_cut_throws"], "note": "For names without an embedded NUL; what follows a NUL is ignored by the code (equalIC_ignores_after_nul)."},
  {"property": "C110", "status": "partial", "theorems": ["Verif.View.view_after_edits", "Verif.View.view_of_text", "Verif.View.value_shown", "Verif.View.shown_short", "Verif.View.shown_line", "Verif.View.shown_first_line", "Verif.View.shown_wrong_line", "Verif.View.bytes_without_prefix"], "note": "proved for all histories and all texts, except for the first line of texts with line feeds alone, where the code is wrong (shown_wrong_line). Decoding of base64 by Qt is not modelled"},
  {"property": "C111", "status": "partial", "theorems": ["Verif.View.catalog_shown", "Verif.View.catalog_hides", "Verif.View.size_shown", "Verif.View.size_undefined", "Verif.View.list_read_back", "Verif.View.list_repeats", "Verif.View.value_unpacked", "Verif.View.value_left_packed", "Verif.View.container_by_start"], "note": "proved with the restrictions the code has: names that differ in case (catalog_hides), sizes below 1001 TiB (size_undefined), no repeated names or line feeds (list_repeats), at most twelve packings (value_left_packed)"},
  {"property": "C112", "status": "partial", "theorems": ["Verif.Config.Ext.extension_exported_partial", "Verif.Config.Ext.unsaved_extension_exported_partial", "Verif.Config.Ext.no_extension_table", "Verif.Config.Ext.extension_refused", "Verif.Config.Ext.list_replaced", "Verif.Config.Ext.no_saved_table"], "note": "Proved from the bytes of the records and blobs to the container reopened. Missing: lists with hashes of falling length or in braces (C77), extensions with saved files (C78), times of modification and NULs behind names (C84), containers of 2 GB; a file listed as configinfo replaces the list (list_replaced)."},
  {"property": "C113", "status": "partial", "theorems": ["Verif.View.grid_rows", "Verif.View.null_cell", "Verif.View.cell_shows_value_partial", "Verif.View.edited_as_shown", "Verif.View.removed_in_italics", "Verif.View.numbers_to_the_right", "Verif.View.columns", "Verif.View.nothing_outside", "Verif.View.large_refused", "Verif.View.large_text_partial", "Verif.View.large_container", "Verif.View.empty_value_is_a_container", "Verif.View.malformed_text_escapes"], "note": "Proved for all tables and indexes whose pages are well formed; dates and binary values that are no identifiers are shown as C68 has them; large values that fail to unpack half way are left out. Findings: an empty large value is given as a container; malformed UTF-16 escapes as an exception."},
  {"property": "C114", "status": "partial", "theorems": ["Verif.View.Hex.history_kept", "Verif.View.Hex.all_undone", "Verif.View.Hex.selected_bytes", "Verif.View.Hex.selection_removed", "Verif.View.Hex.search_forward", "Verif.View.Hex.search_backward_partial", "Verif.View.Hex.found_selected_partial", "Verif.View.Hex.overwriting_the_end_not_undone", "Verif.View.Hex.pasting_misplaced", "Verif.View.Hex.search_of_a_byte_stays", "Verif.View.Hex.search_back_wraps"], "note": "Edits, undo and redo, selections and searches in full; what lies over the end of the value, pasting over a selection and searching for one byte or from the beginning are refuted. QByteArray and QUndoStack as documented by Qt 5."},
  {"property": "C115", "status": "partial", "theorems": ["Verif.FileStream.stored_whole", "Verif.FileStream.stored_part_partial", "Verif.FileStream.stored_beyond", "Verif.FileStream.stored_from_file", "Verif.FileStream.nothing_left_stores_zeros", "Verif.FileStream.no_bytes_stores_all", "Verif.FileStream.own_stream_misplaced", "Verif.FileStream.own_stream_doubles"], "note": "Whole contents from memory and from other files in full; parts while the stream has bytes left. Exhausted streams, a count of 0 and streams over the file itself are refuted."},
  {"property": "C116", "status": "partial", "theorems": ["Verif.Config.Again.same_every_time", "Verif.Config.Again.every_export_partial", "Verif.Config.Again.failed_reading_stays", "Verif.Config.Again.second_export_truncated"], "note": "Proved for every configuration whose files can be read; that the file is the configuration as in C84 (no files of no bytes, below 2 GB). A file that cannot be read is exported cut short by the second export (proved)."},
  {"property": "C117", "status": "partial", "theorems": ["Verif.Cache.flush_reached", "Verif.Cache.power_mix", "Verif.Cache.power_keeps", "Verif.Cache.power_opens", "Verif.Cache.power_history", "Verif.Cache.power_refused", "Verif.Cache.power_out_of_order"], "note": "Proved for every state and history, every set and order of bytes. Missing: atomicity, which the code does not have (power_out_of_order, power_refused); what earlier flushes wrote is taken to have reached the disk."},
  {"property": "C118", "status": "partial", "theorems": ["Verif.Container.added_lost_partial", "Verif.Config.Whole.export_cut_short", "Verif.Container.removed_comes_back"], "note": "Proved for new files added after a flush, free pages or not, and for every prefix of an export. Missing: contents that the codec cannot give back (as in C66). Replaced files are C119; removed files come back mixed up (removed_comes_back)."},
  {"property": "C119", "status": "partial", "theorems": ["Verif.Container.replaced_kept_partial"], "note": "Proved for containers flushed without free pages and lists in which each new name occurs once (replaced ones as often as one likes). Missing: free pages, new names written twice, contents that the codec cannot give back (as in C66)."},
  {"property": "C12", "status": "proved", "theorems": ["Verif.Unicode.utf16_to_utf8", "Verif.Unicode.utf8_to_utf16", "Verif.Unicode.utf16_roundtrip", "Verif.Unicode.utf16_accepts_only_wellformed", "Verif.Unicode.utf8_accepts_only_wellformed"], "note": ""},
  {"property": "C13", "status": "partial", "theorems": ["Verif.Time.v8time_roundtrip_partial", "Verif.Time.posix_filetime_shift", "Verif.Time.posix_filetime_not_inverse", "Verif.Time.posix_from_padding", "Verif.Time.posix_depends_on_padding", "Verif.Time.v8time_not_roundtrip", "Verif.Time.zone_moves_file_time"], "note": "The full claim is false of the code: v8time_not_roundtrip, posix_filetime_not_inverse. Proved for the arithmetic of V8Time over inverse operating-system conversions."},
  {"property": "C14", "status": "proved", "theorems": ["Verif.Stream.memory_stream_is_array", "Verif.Stream.failed_seek_moves", "Verif.Stream.negative_seek_accepted", "Verif.Stream.vec_read_rest", "Verif.Stream.vec_write_overrun"], "note": "Memory streams over all sequences of reads, writes and seeks inside the stream. A failing seek still moves the position and a negative seek is accepted; both are proved as separate theorems."},
  {"property": "C15", "status": "partial", "theorems": ["Verif.Stream.copy_appends_partial", "Verif.Stream.copy_zero_copies_all", "Verif.Stream.copy_exhausted_writes_zeros", "Verif.Stream.file_read_exact", "Verif.Stream.file_write_overlays", "Verif.Stream.file_write_lost_after_short_read"], "note": "Copying appends exactly the requested bytes when the source has them. When the source runs out the copy writes zeros instead (proved), so the full statement is false of the code."},
  {"property": "C16", "status": "partial", "theorems": ["Verif.Zlib.deflate_correct_partial", "Verif.Zlib.deflate_multiple_fails", "Verif.Zlib.inflate_correct", "Verif.Zlib.inflate_truncated_silent", "Verif.Zlib.deflate_inflate_partial", "Verif.Zlib.Example.multiple_of_chunk_is_lost"], "note": "The drivers are proved against an abstract streaming codec with stated laws and a concrete instance. Input whose length is a multiple of the chunk size is never finished (proved), so the round trip holds only for other lengths; truncated input is accepted silently (proved)."},
  {"property": "C17", "status": "proved", "theorems": ["Verif.Cache.cache_transparent", "Verif.Cache.write_without_read_depends_on_cache", "Verif.Cache.put_weak", "Verif.Object.store_is_cache_store", "Verif.Object.fetch_is_cache_fetch"], "note": "Refinement to a plain array of pages over every history of calls. Pages handed out without their old contents must be overwritten entirely; that this is needed is proved."},
  {"property": "C18", "status": "proved", "theorems": ["Verif.Cache.disk_is_last_flush", "Verif.Cache.flush_durable", "Verif.Cache.clean_keeps_modified"], "note": ""},
  {"property": "C19", "status": "proved", "theorems": ["Verif.Cache.append_one_page", "Verif.Cache.append_with_read_is_ub", "Verif.Cache.reachable_inv", "Verif.Cache.append_weak"], "note": ""},
  {"property": "C20", "status": "proved", "theorems": ["Verif.Object.read_range_80", "Verif.Object.read_whole_80", "Verif.Object.partial_is_slice_80"], "note": "Reads of any range and of the whole file, format 8.0, against the table layout."},
  {"property": "C21", "status": "proved", "theorems": ["Verif.Object.read_range_838_one", "Verif.Object.read_range_838_two", "Verif.Object.read_whole_838"], "note": "Format 8.3.8, both fat levels."},
  {"property": "C22", "status": "partial", "theorems": ["Verif.Object.read_outside_refused_partial", "Verif.Object.read_outside_cached_unchecked", "Verif.Object.read_outside_wraps", "Verif.Object.read_nothing_is_ub"], "note": "Refused only while the file is not cached as a whole and start+length does not wrap; three negative theorems show what the code does otherwise."},
  {"property": "C23", "status": "proved", "theorems": ["Verif.Object.write_range_80", "Verif.Object.write_range_838", "Verif.Object.write_readonly"], "note": "Both formats, every object with distinct pages, every non-empty range inside the object; also: read-only refuses. The version words of the header page are the only other bytes that change."},
  {"property": "C24", "status": "partial", "theorems": ["Verif.Object.file_offset_correct_partial", "Verif.Object.file_offset_wraps"], "note": "Correct while the byte position fits 32 bits; wraps otherwise (proved)."},
  {"property": "C25", "status": "partial", "theorems": ["Verif.Object.set_len_grow_80_partial", "Verif.Object.set_len_shrink_80_partial", "Verif.Object.set_len_80_partial", "Verif.Object.store_80_partial", "Verif.Object.store_history_80_partial", "Verif.Object.opened_reopens", "Verif.Object.set_len_grow_overflows", "Verif.Object.set_len_zero_never_returns", "Verif.Object.set_len_838_from_empty", "Verif.Object.set_len_838_shrink_two_levels", "Verif.Object.max_length_wraps", "Verif.Object.grow_838_overwrites_page_zero", "Verif.Object.grow_838_keeps_old_count", "Verif.Object.set_len_grow_838_one_partial", "Verif.Object.set_len_838_one_overflows", "Verif.Object.opened_838_reopens", "Verif.Object.init_opened_838", "Verif.Object.set_len_grow_838_two_partial", "Verif.Object.set_len_grow_838_cross_partial", "Verif.Object.store_838_two_partial", "Verif.Object.store_838_cross_partial", "Verif.Object.store_history_838_two_partial", "Verif.Object.grow_838_empty_first_table"], "note": "Format 8.0: growing, shrinking (to any non-zero length), and storing at any position are proved for every length up to the capacity of 254 tables, with histories. Format 8.3.8, database without free pages: growing with one level (the file is right, the object in memory is not), with two, and from one level to two, storing with two, and histories of stores are proved; strict reading of growing within one level below four times the pages is shown undefined. Missing: format 8.3.8 starting empty or shrinking (shown to go wrong), reuse of free pages in it, and length 0 (never returns)."},
  {"property": "C26", "status": "partial", "theorems": ["Verif.Object.free_list_history_partial", "Verif.Object.alloc_is_fresh", "Verif.Object.release_then_alloc", "Verif.Object.free_list_reopens", "Verif.Object.release_overflows_vector", "Verif.Object.release_838_breaks_root", "Verif.Object.alloc_838_appends"], "note": "Whole histories refine the abstract allocator for format 8.0; needs the heap overflow in the release path to be harmless (release_overflows_vector) and at most 253 list pages. Format 8.3.8: alloc appends, release is shown to break the root."},
  {"property": "C27", "status": "partial", "theorems": ["Verif.Object.delete_one_table_partial", "Verif.Object.delete_calls", "Verif.Object.delete_once_iff", "Verif.Object.released_twice_given_twice", "Verif.Object.delete_refuses_service_objects", "Verif.Object.delete_calls_838", "Verif.Object.delete_838_once_iff", "Verif.Object.delete_838_foreign", "Verif.Object.delete_838_two_level", "Verif.Object.delete_838_ub"], "note": "Proved for objects with one allocation table (1 to 1023 data pages); the general list of calls (delete_calls) shows the header page is never released for an empty object and released once per table otherwise, so the property holds exactly for one table (delete_once_iff). In format 8.3.8 the data pages are read as tables: the calls are stated in general (delete_calls_838), the property holds exactly for one data page beginning with four zero bytes (delete_838_once_iff), foreign pages and page 0 are released otherwise."},
  {"property": "C28", "status": "partial", "theorems": ["Verif.Object.record_versions_increase", "Verif.Object.stored_version", "Verif.Object.reported_version_is_stale"], "note": "Record versions increase (below 2^32 requests) and the stored version advances at most once, to the version the records carry. The last clause of the statement is false of the code and its negation is proved: get_current_version keeps reporting the old version."},
  {"property": "C29", "status": "proved", "theorems": ["Verif.Object.save_to_file_80", "Verif.Object.save_to_file_838"], "note": "Saved file equals the contents."},
  {"property": "C30", "status": "partial", "theorems": ["Verif.Blob.store_blob_partial", "Verif.Blob.read_back_partial", "Verif.Blob.blob_history_partial", "Verif.Blob.store_chars", "Verif.Blob.store_chars_reads_back_wrong", "Verif.Blob.store_chars_overflows", "Verif.Blob.store_without_file", "Verif.Blob.read_empty", "Verif.Blob.read_null_start"], "note": "Stream variant: proved for every well-formed file, data and history below 4 GiB. The buffer variant stores a zeroed tail and overruns the buffer for lengths not divisible by 250 (store_chars...); a missing blob file is dereferenced."},
  {"property": "C31", "status": "partial", "theorems": ["Verif.Blob.store_blob_partial", "Verif.Blob.delete_blob_partial", "Verif.Blob.blob_history_partial", "Verif.Blob.offset_wraps", "Verif.Blob.full_file_store"], "note": "Proved for every well-formed file and history below 4 GiB; at 4 GiB offsets wrap (full_file_store)."},
  {"property": "C32", "status": "partial", "theorems": ["Verif.Blob.read_object_exact", "Verif.Blob.read_bounded", "Verif.Blob.read_terminates_partial", "Verif.Blob.read_back_partial", "Verif.Blob.empty_cycle_never_ends", "Verif.Blob.table_read_ignores_length", "Verif.Blob.buffer_read_overflows_blob", "Verif.Blob.buffer_read_safe", "Verif.Blob.stream_read_safe"], "note": "Exact length or error for the object reader, bounded size for every file; termination for files without empty blocks; counterexamples: cycle of empty blocks never ends, table reader ignores a wrong length, buffer reader overruns its buffer."},
  {"property": "C33", "status": "partial", "theorems": ["Verif.Record.layout_partition_partial", "Verif.Record.layout_disjoint_partial", "Verif.Record.table_layout_partial", "Verif.Record.hidden_version_has_no_place", "Verif.Record.negative_length_overlaps", "Verif.Record.record_at_least_five"], "note": "Every field list with non-negative lengths, starting from the table description. The full claim is false of the code: the hidden VERSION field of tables with record locks gets no place (hidden_version_has_no_place) and negative lengths are accepted (negative_length_overlaps)."},
  {"property": "C34", "status": "partial", "theorems": ["Verif.Record.set_data_partial", "Verif.Record.set_data_nullable_spills", "Verif.Record.set_data_nullable_ub", "Verif.Record.set_value", "Verif.Record.set_on_null_is_lost", "Verif.Record.set_null_field", "Verif.Record.set_field_of_table_partial", "Verif.Record.assign_table", "Verif.Record.assign_free"], "note": "Proved for fields that cannot be null. For nullable fields set_data copies one byte too many (set_data_nullable_spills, set_data_nullable_ub) and set<T> leaves the null flag (set_on_null_is_lost)."},
  {"property": "C35", "status": "partial", "theorems": ["Verif.Record.physNum_iff", "Verif.Record.scan_visits_live", "Verif.Record.live_sorted", "Verif.Record.record_index_lists_live", "Verif.Record.record_behind_refused_partial", "Verif.Record.record_number_wraps"], "note": "Scanning and the record index are proved for every table. A record number outside the table is refused only while its position fits 32 bits (record_number_wraps)."},
  {"property": "C36", "status": "proved", "theorems": ["Verif.Record.lookup_first", "Verif.Record.hidden_field_not_found"], "note": "First match up to case, for every list of names (texts without NUL). The hidden VERSION field lies behind the counted fields and is not part of the list (hidden_field_not_found)."},
  {"property": "C37", "status": "partial", "theorems": ["Verif.Record.edit_session_partial", "Verif.Record.cancel_restores", "Verif.Record.field_marks", "Verif.Record.put_needs_begin", "Verif.Record.begin_refused", "Verif.Record.edit_existing_ub", "Verif.Record.uncounted_record_wraps", "Verif.Record.first_new_without_mark_ub"], "note": "Refinement of every editing session to a small specification: marks, added records, renumbering, cancel. Changing a stored record, or filling the first new record before marking it inserted, is undefined in the code (edit_existing_ub, first_new_without_mark_ub); ending a session is C74."},
  {"property": "C38", "status": "partial", "theorems": ["Verif.Index.unpack_pack_partial", "Verif.Index.pack_sorted", "Verif.Index.pack_keeps_links", "Verif.Index.primary_end_fine", "Verif.Index.recBytes_isWidth", "Verif.Index.isWidth_unique", "Verif.Index.duplicate_end_reads_past", "Verif.Index.full_page_unreadable"], "note": "Proved: entries in key order are packed exactly when they fit, the page keeps its links, and unpacking gives the entries back except when the last record ends less than eight bytes before the end of the page (the unpacker then reads past it). Missing: round trip without that exception, which the code does not have (full_page_unreadable), and packing of equal last keys (duplicate_end_reads_past)."},
  {"property": "C39", "status": "proved", "theorems": ["Verif.Index.walk_lists", "Verif.Index.walk_lists_records", "Verif.Index.walk_empty", "Verif.Index.packed_isLeaf", "Verif.Index.numRec_beyond_ub", "Verif.Index.walk_cycle_diverges"], "note": "For every well-formed index in its file (any depth, any number of leaves). Disagreements for malformed ones: more entries than records is undefined, a cycle never ends, a number beyond the list is undefined."},
  {"property": "C40", "status": "proved", "theorems": ["Verif.Record.indexed_scan", "Verif.Record.indexed_scan_all"], "note": "For every list of record numbers in the index; the record numbers an index yields are C39."},
  {"property": "C41", "status": "partial", "theorems": ["Verif.Tree.print_parse_partial", "Verif.Tree.print_injective", "Verif.Tree.empty_list_lost", "Verif.Tree.single_empty_lost", "Verif.Tree.second_root_lost", "Verif.Tree.leading_blank_lost"], "note": "Round trip for every tree except childless lists, single-empty lists, several root nodes and values starting with a line break, each of which is proved to be lost."},
  {"property": "C42", "status": "partial", "theorems": ["Verif.Tree.accepted_is_balanced_partial", "Verif.Tree.stream_accepted_is_balanced_partial", "Verif.Tree.parse_never_leaves_tree", "Verif.Tree.unbalanced_accepted", "Verif.Tree.unbalanced_after_nul"], "note": "Accepted text is balanced unless it contains NUL or ends in an unclassifiable value (both proved to be counterexamples); termination and never leaving the tree hold for all inputs."},
  {"property": "C43", "status": "proved", "theorems": ["Verif.Tree.classify_correct", "Verif.Tree.type_unique", "Verif.Tree.quoted_string_recovered", "Verif.Tree.printed_string_is_quoted", "Verif.Tree.classify_nul"], "note": "Type = description by characters, uniquely, for values without NUL; with NUL only the part before it counts; strings recovered exactly."},
  {"property": "C44", "status": "partial", "theorems": ["Verif.Container.header_roundtrip_partial", "Verif.Container.header_set", "Verif.Container.header_large_unreadable"], "note": "Proved for every value below 2^31; for the other half of the 32-bit range the header cannot be read back (header_large_unreadable: std::stoi throws)."},
  {"property": "C45", "status": "proved", "theorems": ["Verif.Container.create_block", "Verif.Container.block_reads", "Verif.Container.first_block"], "note": "Creating a block at any reachable layout stores exactly the given bytes, returns a fresh address and leaves every other block readable and unchanged; a stored block reads back identically. Container length below 2^31-1 (the format's limit)."},
  {"property": "C46", "status": "partial", "theorems": ["Verif.Container.container_history_partial", "Verif.Container.rewrite_block_partial", "Verif.Container.release_block_partial", "Verif.Container.step_rep", "Verif.Container.rewrite_of_empty_block_destroys_neighbour"], "note": "Every history of create/rewrite/release keeps every stored block readable and unaffected by the others, provided rewritten/released blocks have room (page size > 0). Rewriting a block that was created empty destroys its neighbour (rewrite_of_empty_block_destroys_neighbour)."},
  {"property": "C47", "status": "partial", "theorems": ["Verif.Entry.entries_history_partial", "Verif.Entry.get_file_finds", "Verif.Entry.finds_unique", "Verif.Entry.create_entry", "Verif.Entry.delete_entry", "Verif.Entry.catalog_delete_undefined"], "note": "Every sequence of creations and of lookups followed by deletion of the entry found. Deletion by name through the catalog continues through the deleted object (catalog_delete_undefined)."},
  {"property": "C48", "status": "partial", "theorems": ["Verif.Entry.entry_header_partial", "Verif.Entry.modification_time_lost"], "note": "Creation time and name (up to trailing NULs) survive; the modification time does not (modification_time_lost), and the name gains two NULs."},
  {"property": "C49", "status": "proved", "theorems": ["Verif.Config.FilesTheorems.content_correct", "Verif.Config.FilesTheorems.files_lookup", "Verif.Config.FilesTheorems.readBlob_zero", "Verif.Config.FilesTheorems.negative_part_ub"], "note": "For every list of records without negative part numbers (those are undefined behaviour: negative_part_ub) a file is found exactly when a record counts for its name, and its content is the parts in order, each from the last record that counts."},
  {"property": "C50", "status": "partial", "theorems": ["Verif.Config.SelectTheorems.choice_partial", "Verif.Config.SelectTheorems.update_variant", "Verif.Config.SelectTheorems.shifted_guid", "Verif.Config.SelectTheorems.plain_variant", "Verif.Config.SelectTheorems.listed_update_loses", "Verif.Config.SelectTheorems.new_loses"], "note": "The stored variant used is the one with the greatest rank among those of its base name; but the GUID of a variant is read one character early, so that a listed update never matches its list entry and loses to the original (proved for every base name and nonzero GUID). A variant marked new loses as stated."},
  {"property": "C51", "status": "partial", "theorems": ["Verif.Config.PathTheorems.read_addresses", "Verif.Config.PathTheorems.plain_path_partial", "Verif.Config.PathTheorems.slash_same", "Verif.Config.PathTheorems.directory_missed", "Verif.Config.PathTheorems.written_elsewhere", "Verif.Config.PathTheorems.write_read_agree", "Verif.Config.PathTheorems.table_top_level", "Verif.Config.PathTheorems.is_path", "Verif.Config.PathTheorems.write_addresses", "Verif.Config.PathTheorems.read_write_same", "Verif.Config.PathTheorems.leading_separator"], "note": "Paths without directories address the named entry. With directories, each directory name loses its last character, and an empty name stands for the rest of the path, in reading, writing and testing (characterised for every path, empty names included, and the negation of the property proved); reading and writing agree for every path."},
  {"property": "C52", "status": "proved", "theorems": ["Verif.Depot.Theorems.export_correct", "Verif.Depot.Theorems.removed_absent", "Verif.Depot.Theorems.no_history_ub", "Verif.Depot.PackTheorems.store_partial", "Verif.Depot.PackTheorems.broken_data_mixed"], "note": "For every history and every list of external data in the order of their objects the exported list holds, once per object in object order, exactly the records that are the newest up to the version and carry data, and with each exactly the external data that belongs to it. An empty history dereferences a null pointer (no_history_ub). store_partial covers where a record's data comes from; the writing of the resulting container is not modelled."},
  {"property": "C53", "status": "proved", "theorems": ["Verif.Db.version_relative", "Verif.Db.version_zero_newest", "Verif.Db.version_positive_unchecked", "Verif.Db.version_min_ub"], "note": "For the version numbers in the order of the index; a positive number is returned without being looked up (version_positive_unchecked), and the least 32-bit number is undefined behaviour."},
  {"property": "C54", "status": "partial", "theorems": ["Verif.Depot.PackTheorems.lookup_partial", "Verif.Depot.PackTheorems.index_roundtrip", "Verif.Depot.PackTheorems.empty_object_wrong", "Verif.Depot.PackTheorems.empty_object_wrong_example", "Verif.Depot.PackTheorems.short_hash_ub", "Verif.Value.short_index"], "note": "Proved for packs that agree on the data of a hash and objects that are not empty. An empty object is served as the whole pack file (empty_object_wrong), so the full claim is false."},
  {"property": "C55", "status": "partial", "theorems": ["Verif.Db.open_consistent", "Verif.Db.open_only_consistent", "Verif.Db.open_short_ub", "Verif.Db.open_zero_page_ub"], "note": "Opening succeeds for exactly the consistent files, with the right version, page size, length and read-only flag. Not in the property's sense total: a file shorter than its header and a page size of 0 are undefined behaviour instead of an error."},
  {"property": "C56", "status": "partial", "theorems": ["Verif.Value.unmask_partial", "Verif.Value.long_key_ub", "Verif.Value.cut_key_ub", "Verif.Value.empty_key_zeroes", "Verif.Value.users_rows"], "note": "Proved for keys of 1 to 127 bytes and every content. A key of 128 or more bytes or a record cut inside its key is undefined behaviour; with an empty key the first byte of the data is zeroed (both proved in general)."},
  {"property": "C57", "status": "partial", "theorems": ["Verif.Cli.parse_partial", "Verif.Cli.reads_total", "Verif.Cli.reads_unique", "Verif.Cli.isTrueString_iff", "Verif.Cli.empty_argument_ub", "Verif.Cli.bad_switch_fails", "Verif.Cli.bf_takes_file", "Verif.Cli.OptionTheorems.options_correct", "Verif.Cli.OptionTheorems.help_stops"], "note": "Every command line of non-empty arguments (valid UTF-8 switches, parameters without stray closing quotes) divides into parts in exactly one way and is parsed into exactly the switches, parameters, file and reports it says. Not for all lines: an empty argument is undefined behaviour, quotes as in C58; and the optional parameter of -bf/-pb is not optional (bf_takes_file)."},
  {"property": "C58", "status": "partial", "theorems": ["Verif.Cli.dequote_partial", "Verif.Cli.dequote_enclosed_partial", "Verif.Cli.dequote_plain_partial", "Verif.Cli.dequote_empty_ub", "Verif.Cli.dequote_enclosed_diverges", "Verif.Cli.dequote_trailing_diverges", "Verif.Cli.dequote_strips_single"], "note": "Proved for parameters with no quote at the end except that of an enclosing non-empty pair; refuted otherwise: an empty pair of quotes is undefined behaviour, two closing quotes never return, and an unpaired closing quote is stripped."},
  {"property": "C59", "status": "proved", "theorems": ["Verif.Record.row_numbers", "Verif.Record.rows_distinct"], "note": "Row numbers while editing, for any order of records."},
  {"property": "C60", "status": "partial", "theorems": ["Verif.Index.leaf_insert_partial", "Verif.Index.insert_refused", "Verif.Index.halves_linked", "Verif.Index.insert_equal_last_ub", "Verif.Index.same_entry_accepted", "Verif.Index.split_root_hides_entries", "Verif.Index.new_root_offset_as_number"], "note": "Proved for one leaf page. Missing: equal keys at the end of a page (undefined in the code), pages full to the last bytes (C38), and halves that do not fit; the branch pages above are C76; the code disagrees with the property when the root is split."},
  {"property": "C61", "status": "partial", "theorems": ["Verif.Index.leaf_delete_partial", "Verif.Index.leaf_delete_absent", "Verif.Index.delete_fits", "Verif.Index.delete_wrecks_page"], "note": "Proved for one leaf page whenever the remaining entries fit, with a sufficient condition for that; they need not fit, and then the page is destroyed. Missing: pages full to the last bytes (C38). The branch pages above are C75."},
  {"property": "C62", "status": "partial", "theorems": ["Verif.Cli.range_single_partial", "Verif.Cli.range_begin_cut", "Verif.Cli.range_begin_wrong", "Verif.Cli.version_overflow_throws", "Verif.Cli.blanks_skipped", "Verif.Cli.range_without_begin", "Verif.Cli.range_digit_begin"], "note": "Single numbers are read correctly; in a range the last digit of the first number is cut off (range_begin_cut), and numbers outside int raise an exception."},
  {"property": "C63", "status": "partial", "theorems": ["Verif.Cli.select_partial", "Verif.Cli.select_empty", "Verif.Cli.dot_matches_anything"], "note": "Proved for ASCII lists without regular-expression characters besides * and ?; other special characters are not taken literally (dot_matches_anything)."},
  {"property": "C64", "status": "partial", "theorems": ["Verif.Db.root_tables", "Verif.Db.root_overrun_ub", "Verif.Db.classify_iff"], "note": "Root objects and classification as stated, for versions before 8.3.8 (whose root object is a blob); a root object that claims more tables than it holds is read past its end."},
  {"property": "C65", "status": "partial", "theorems": ["Verif.Value.export_content_partial", "Verif.Value.export_plain", "Verif.Value.export_unpackable", "Verif.Value.export_head_only", "Verif.Value.empty_content_exports_all", "Verif.Value.negative_length_ub", "Verif.Value.large_keeps_blob", "Verif.Value.export_cut", "Verif.Value.copy_at_end_zeros", "Verif.Value.large_content_appended"], "note": "Proved for blobs up to 10 MiB with a non-empty content. An empty content exports the rest of the value instead, a negative length is undefined behaviour, and over 10 MiB the file begins with the whole blob (each proved in general). Decompression is a parameter."},
  {"property": "C66", "status": "partial", "theorems": ["Verif.Container.named_contents_partial", "Verif.Container.open_empty", "Verif.Container.plain_packs", "Verif.Container.zip_packs", "Verif.Container.zip_multiple_not_stored", "Verif.Container.created_entry_breaks_container", "Verif.Container.empty_content_breaks_entry"], "note": "Any history from an empty stream, for any codec that gives contents back (Packs); plain_packs and zip_packs say which do. Missing: plain empty contents and packed contents of a multiple of 16384 bytes, for which negations are proved; entries created and never written (negation)."},
  {"property": "C67", "status": "partial", "theorems": ["Verif.Container.written_recognised_partial", "Verif.Container.recognising_throws_iff", "Verif.Container.recognising_defined", "Verif.Container.ff_file_throws", "Verif.Container.short_file_throws"], "note": "Every flushed container is recognised; the test throws exactly for the streams of recognising_throws_iff, so the first half of the property is false."},
  {"property": "C68", "status": "partial", "theorems": ["Verif.Field.null_text", "Verif.Field.null_string_throws", "Verif.Field.value_string", "Verif.Field.bool_text", "Verif.Field.number_text", "Verif.Field.date_text_partial", "Verif.Field.date_text_reads_past", "Verif.Field.binary_text_exact", "Verif.Field.binary_text_has_nul", "Verif.Field.reference_text", "Verif.Field.identifier_text", "Verif.Field.manager_guid", "Verif.Field.char_text", "Verif.Field.varchar_text", "Verif.Field.varchar_count_reads_past", "Verif.Field.version_text", "Verif.Field.version8_text", "Verif.Field.large_text", "Verif.Field.large_text_detailed", "Verif.Field.varbinary_text_exact", "Verif.Field.text_local", "Verif.Field.stored_number_text"], "note": "Nulls, booleans, numbers, identifiers, strings, versions and large values as stated, for every record; text_local: nothing but the field matters. Bytes are shown with two NULs appended, dates need three bytes behind them (partial), a wrong string count reads past the field: proved as disagreements."},
  {"property": "C69", "status": "partial", "theorems": ["Verif.Field.entry_null", "Verif.Field.entry_bool", "Verif.Field.entry_number_partial", "Verif.Field.entry_date_partial", "Verif.Field.entry_refused", "Verif.Field.entry_fits", "Verif.Field.entry_binary_wrong", "Verif.Field.entry_identifier_wrong", "Verif.Field.entry_string_reads_past", "Verif.Field.entry_string_empty", "Verif.Field.entry_binary_short"], "note": "Proved for nulls, booleans, numbers and dates; whatever is entered, exactly the bytes of the field result. False for bytes, identifiers and strings (proved)."},
  {"property": "C70", "status": "partial", "theorems": ["Verif.Field.null_xml", "Verif.Field.null_xml_string_throws", "Verif.Field.plain_xml", "Verif.Field.string_xml_partial", "Verif.Field.string_xml_second", "Verif.Field.version_xml", "Verif.Field.memo_xml_partial", "Verif.Field.text_xml_cut", "Verif.Field.text_xml_reads_past", "Verif.Field.image_xml", "Verif.Field.image_xml_nul", "Verif.Field.date_xml_partial", "Verif.Field.empty_date_xml", "Verif.Field.date_xml_reads_past"], "note": "Proved for nulls, numbers, booleans, bytes, versions and images; for strings and memos without repeated special characters; for dates with their year unpadded. The rest is proved false."},
  {"property": "C71", "status": "partial", "theorems": ["Verif.Field.plain_key", "Verif.Field.number_key_order", "Verif.Field.nullable_key", "Verif.Field.next_key_overwrites", "Verif.Field.null_key", "Verif.Field.string_record_key", "Verif.Field.record_key_place", "Verif.Field.record_key_ignores_value", "Verif.Field.record_key_reads_past"], "note": "Keys of single values of bytes, booleans, dates and numbers order as the values; for records the claim is false, as proved in general."},
  {"property": "C72", "status": "partial", "theorems": ["Verif.Object.set_whole_80_partial", "Verif.Object.set_whole_80_loses_last_page", "Verif.Object.set_whole_80_wrong", "Verif.Object.set_whole_80_empty_never_returns", "Verif.Object.set_whole_refused", "Verif.Object.set_whole_838_partial", "Verif.Object.set_whole_838_from_empty"], "note": "format 8.0: all lengths but those with a one-page last table (where the last page is lost), up to 254 tables; format 8.3.8: same length"},
  {"property": "C73", "status": "partial", "theorems": ["Verif.Template.template_exact", "Verif.Template.laid_of_layout", "Verif.Template.test_page_exact", "Verif.Template.valid_table_fits", "Verif.Template.repair_partial", "Verif.Template.repair_restores_partial", "Verif.Template.removed_never_fits", "Verif.Template.free_list_never_fits", "Verif.Template.short_records_never_fit", "Verif.Template.repair_never_returns", "Verif.Template.lost_placement_page_ub"], "note": "Page test exact for full pages; repair described exactly for records on full pages with intact placement pages. Proved false by the code: tables with removed records, with records of less than four bytes of fields, records not ending with a page (never returns), lost placement pages (undefined behaviour)."},
  {"property": "C74", "status": "partial", "theorems": ["Verif.Record.delete_record_partial", "Verif.Record.end_of_deletions_partial", "Verif.Record.delete_long_ub", "Verif.Record.deleted_place_is_lost", "Verif.Record.nullable_blob_start", "Verif.Record.delete_nullable_blob_throws", "Verif.Record.insert_stores_memory", "Verif.Record.insert_reads_memory", "Verif.Record.second_insert_throws", "Verif.Record.insert_ub", "Verif.Record.new_place_reused", "Verif.Record.update_never_returns"], "note": "Sessions that only delete (with marks taken back) are proved end to end for records not longer than a record object and blob fields that cannot be null. Everything else fails in the code: what is stored is the memory of an object (insert_stores_memory), a second new record is refused (second_insert_throws), changed records are undefined (update_never_returns), and so on."},
  {"property": "C75", "status": "partial", "theorems": ["Verif.Index.delete_from_index_partial", "Verif.Index.delete_then_walk_partial", "Verif.Index.walk_index", "Verif.Index.delete_misses_repeated_key", "Verif.Index.delete_last_entry_frees_root", "Verif.Index.delete_overlapping_ub"], "note": "Proved for indexes of any depth in which no key goes on from one leaf to the next, if an entry is left and what is left on the leaf fits (C61). Missing is what the code gets wrong: keys that go on (not found), the last entry (the root page is freed), and machines where overlapping copies are not in order."},
  {"property": "C76", "status": "partial", "theorems": ["Verif.Index.insert_into_index_partial", "Verif.Index.insert_then_walk_partial", "Verif.Index.insert_after_last_removed_ub", "Verif.Index.split_loses_leaves", "Verif.Index.split_below_full_page_ub"], "note": "Proved for indexes of any depth with entries, in which no key goes on from one leaf to the next, if the leaf has room. Missing: leaves without room, where the code loses entries of the page above or overruns a buffer (proved on concrete files); two equal keys at the end of a leaf (C60); an index emptied before (undefined)."},
  {"property": "C77", "status": "partial", "theorems": ["Verif.Config.open_by_hashes_partial", "Verif.Config.shorter_hash_refused", "Verif.Config.one_list_refused", "Verif.Config.no_version_refused"], "note": "lists whose hashes do not get shorter; a shorter hash is refused (proved)"},
  {"property": "C78", "status": "partial", "theorems": ["Verif.Config.open_unsaved_partial", "Verif.Config.saved_refused", "Verif.Config.name_without_hash_ub", "Verif.Config.short_name_refused", "Verif.Config.known_name_skipped"], "note": "configurations with no saved files; with saved files they are refused (proved)"},
  {"property": "C79", "status": "partial", "theorems": ["Verif.Config.open_edited_partial", "Verif.Config.saved_wins", "Verif.Config.ids_read", "Verif.Config.saved_twice_refused", "Verif.Config.extension_lost", "Verif.Config.new_lost", "Verif.Config.update_lost", "Verif.Config.deleted_stays", "Verif.Config.long_count_ub", "Verif.Config.leading_point_kept"], "note": "plain names; other names lose a character and deleted files stay (proved)"},
  {"property": "C80", "status": "partial", "theorems": ["Verif.Config.Opening.opening_partial", "Verif.Config.Opening.packed_iff", "Verif.Config.Opening.reopened_short", "Verif.Config.Opening.reopened_short_packed", "Verif.Config.Opening.unpacked_leaks", "Verif.Config.Opening.empty_name_ub"], "note": "histories without failures of reading; after a failure the contents are short (proved)"},
  {"property": "C81", "status": "partial", "theorems": ["Verif.Export.export_reads_partial", "Verif.Export.first_blob", "Verif.Export.all_loses_records", "Verif.Export.blobs_nested", "Verif.Export.repeated_name", "Verif.Export.junk_refuses", "Verif.Export.raw_value_unreadable"], "note": "Proved for exports without blob files, for texts without raw '<' and names that can stand in an element. The code violates the rest: exports of all tables leave out the records of tables without a primary index, blob files are put below each other, repeated names and an uninitialised counter spoil file names."},
  {"property": "C82", "status": "partial", "theorems": ["Verif.Depot.Part.save_part_partial", "Verif.Depot.Part.missing_version_refused", "Verif.Depot.Part.either_order", "Verif.Depot.Part.changed_object_ub", "Verif.Depot.Part.changed_object_of_another", "Verif.Depot.Part.changed_object_empty", "Verif.Depot.Part.later_record_hides_data", "Verif.Depot.Part.list_below_database", "Verif.Depot.Part.layout_of_later_row", "Verif.Depot.Part.no_history_ub"], "note": "Proved, for every depot, for objects of which no older version has data in the table (or whose hash is the same) and whose last record has data. The rest is violated by the code: contents of another file are written, data is hidden by later records, the list of deleted files goes below the database file."},
  {"property": "C83", "status": "partial", "theorems": ["Verif.Object.Transfer.export_writes", "Verif.Object.Transfer.root_record", "Verif.Object.Transfer.import_export_80_partial", "Verif.Object.Transfer.import_creates_80_partial", "Verif.Object.Transfer.import_empty_never_returns", "Verif.Object.Transfer.import_without_root", "Verif.Object.Transfer.import_838_wrong_length"], "note": "Format 8.0, into files that are there and into files that have to be created. Missing, because the code does not do it: lengths whose last allocation table lists one page (C72), emptying a file, format 8.3.8. Failure to write the folder is not modelled."},
  {"property": "C84", "status": "partial", "theorems": ["Verif.Config.Whole.saved_configuration_partial", "Verif.Config.Whole.modified_lost", "Verif.Config.Whole.names_padded", "Verif.Config.Whole.not_ready", "Verif.Config.Whole.open_modified"], "note": "proved for configurations below 2 GB; the code loses modification times and pads names (negations proved)"},
  {"property": "C85", "status": "partial", "theorems": ["Verif.Vendor.listed_partial", "Verif.Vendor.damaged_hides_all", "Verif.Vendor.damaged", "Verif.Vendor.no_version", "Verif.Vendor.listed_twice", "Verif.Vendor.short_count_ub", "Verif.Vendor.nameless", "Verif.Vendor.saved_partial", "Verif.Vendor.same_name_overwritten", "Verif.Vendor.not_created_reported_saved"], "note": "Proved: when every file with a name of 73 characters holds a vendor configuration, the list is exactly them with what their metadata say, and stays so; saved under distinct names, each file is the whole unpacked container. The code violates the rest, with negations proved: a damaged file hides all, entries listed twice after a failure, undefined behaviour for a too large node count, nameless entries, overwriting, uncreatable files reported saved."},
  {"property": "C86", "status": "partial", "theorems": ["Verif.App.no_commands", "Verif.App.help_only", "Verif.App.no_database", "Verif.App.missing_database", "Verif.App.not_opened", "Verif.App.commands_in_turn", "Verif.App.messages", "Verif.App.not_silent", "Verif.App.only_named_files", "Verif.App.saved_where", "Verif.App.save_commands", "Verif.App.saved_nowhere", "Verif.App.saved_not_infobase", "Verif.App.vendor_inside_partial", "Verif.App.vendor_escapes", "Verif.App.line_unique", "Verif.App.sizes_partial", "Verif.App.sizes_negative", "Verif.App.sizes_not_created", "Verif.App.log_deletes_database", "Verif.App.depot_part_saved", "Verif.App.depot_config_saved", "Verif.App.depot_no_version"], "note": "The code disagrees: status 0 whatever errors were reported (commands_in_turn), -nv without effect (not_silent), a log file with the path of the database deletes it (log_deletes_database), vendor names lead out of the directory (vendor_escapes), sizes from 2 GiB on negative (sizes_negative), a sizes file that cannot be created is not reported (sizes_not_created). Proved: statuses, order of commands, messages, files touched, where configurations go, the file of sizes below 2 GiB."},
  {"property": "C87", "status": "partial", "theorems": ["Verif.Lost.find_partial", "Verif.Lost.save_partial", "Verif.Lost.fileName_eq", "Verif.Lost.foreign_hides", "Verif.Lost.beside", "Verif.Lost.damaged_stops", "Verif.Lost.none_838", "Verif.Lost.nothing_saved_838", "Verif.Lost.mark_838_ub"], "note": "The code disagrees: objects of another database hide lost ones (foreign_hides), files land beside the directory (beside), damage ends the search (damaged_stops), nothing is found in format 8.3.8 (none_838, nothing_saved_838, mark_838_ub). Proved for format 8.0 with one open database: exactly the lost objects are reported, and saved whole."},
  {"property": "C88", "status": "partial", "theorems": ["Verif.Tables.delete_files_partial", "Verif.Tables.drop_from_list_partial", "Verif.Tables.delete_table_partial", "Verif.Tables.delete_readonly", "Verif.Tables.absent_drops_last", "Verif.Tables.restore_partial", "Verif.Tables.deleted_returns", "Verif.Tables.unreadable_skipped"], "note": "Format 8.0: the pages given back, the lists, frames and the search for lost tables, for files within one allocation table. delete_readonly, absent_drops_last and deleted_returns are negations. Missing: longer files (see C27), lost objects that cannot be read, format 8.3.8."},
  {"property": "C89", "status": "partial", "theorems": ["Verif.Tables.create_exported_undefined", "Verif.Tables.create_ub", "Verif.Tables.create_never_lists", "Verif.Tables.create_only_removes", "Verif.Tables.create_loses", "Verif.Tables.create_passes_over"], "note": "The property fails: proved are its negations. No exported table with a description can be created with defined behaviour, and a run that returns never adds a table but deletes the one of the same name."},
  {"property": "C90", "status": "partial", "theorems": ["Verif.Depot.File.Theorems.saved_depot_partial", "Verif.Depot.File.Theorems.snapshot_saved", "Verif.Depot.File.Theorems.snapshot_iff", "Verif.Depot.File.Theorems.header_iff", "Verif.Depot.File.Theorems.missing_data", "Verif.Depot.File.Theorems.depot_format", "Verif.Depot.File.Theorems.config_version", "Verif.Depot.File.Theorems.snapshot_names", "Verif.Depot.File.Theorems.plain_maker_text", "Verif.Depot.File.Theorems.saved_old_depot_partial"], "note": "Proved for configurations of either format with readable non-empty contents and distinguishable names, below 2 gigabytes. Refuted: a failed save has already destroyed the previous file (missing_data); snapshots of versions 100000 apart share a name (snapshot_names)."},
  {"property": "C91", "status": "partial", "theorems": ["Verif.TableOpen.open_table", "Verif.TableOpen.open_text", "Verif.TableOpen.opened_acceptable", "Verif.TableOpen.unacceptable_refused", "Verif.TableOpen.open_defined", "Verif.TableOpen.not_a_description", "Verif.TableOpen.opened_from_description", "Verif.TableOpen.description_unique", "Verif.TableOpen.index_fields_exist", "Verif.TableOpen.records_inside", "Verif.TableOpen.big_data_refused", "Verif.TableOpen.cyrillic_field_refused", "Verif.TableOpen.huge_undefined", "Verif.TableOpen.far_free_page_passes", "Verif.TableOpen.get_data_80", "Verif.TableOpen.get_data_838"], "note": "Opened exactly if acceptable, for names without NUL and lengths that fit 32 bits; the rest is refuted: lengths that overflow are undefined behaviour, Cyrillic field names are refused, the first free page is checked modulo 4 GB."},
  {"property": "C92", "status": "proved", "theorems": ["Verif.Crc.crc_of_stream", "Verif.Crc.crc_detects_burst", "Verif.Crc.crc_detects_change", "Verif.Crc.damaged_snapshot_not_used", "Verif.Crc.crc_misses_change"], "note": "Memory streams; the library's register is modelled from its documentation. Detection: all runs of up to 32 bits; five bytes can be changed without a trace (crc_misses_change)."},
  {"property": "C93", "status": "partial", "theorems": ["Verif.FileStream.streams_share_file_partial", "Verif.FileStream.copy_takes_whole", "Verif.FileStream.seek_end_passes_end", "Verif.FileStream.seek_end_ignores", "Verif.FileStream.seek_before_start", "Verif.FileStream.read_after_shortening", "Verif.FileStream.reported_position_is_zero", "Verif.FileStream.destroy_with_stream"], "note": "All admissible histories, and copying from a stream. Missing: seeking from the end, seeking before the beginning, streams behind the end of a shortened file, reported positions, destruction with open streams: these are shown to go wrong."},
  {"property": "C94", "status": "partial", "theorems": ["Verif.Handle.file_is_array_partial", "Verif.Handle.new_file_is_array_partial", "Verif.Handle.object_stream_partial", "Verif.Handle.closing_undefined_iff", "Verif.Handle.closed_then_destroyed", "Verif.Handle.write_after_short_read_lost", "Verif.Handle.unwritable_file_reads_empty", "Verif.Handle.save_entry_undefined", "Verif.Handle.save_entry_undefined_anywhere", "Verif.Handle.save_dir_undefined", "Verif.Handle.empty_object_undefined"], "note": "Missing: closing a closed stream (undefined; proved to be exactly the undefined histories), writing after a read that met the end (lost), files without write access (read as empty), saving entries and containers to files (always undefined); full disks, reading errors and the directories SaveToDir makes are not modelled."},
  {"property": "C95", "status": "partial", "theorems": ["Verif.Nested.nested_contents_partial"], "note": "Proved for any codec of the outermost container whose contents it can give back; inner containers are not packed. Missing: empty contents (C66), streams of 2^31 - 1 bytes and more, and writing to an entry while its inner container is open."},
  {"property": "C96", "status": "partial", "theorems": ["Verif.Cfu.update_file_partial", "Verif.Cfu.changes_to_existing_lost", "Verif.Cfu.unused_file_is_no_container", "Verif.Cfu.flushed_while_let_go_lost", "Verif.Cfu.multiple_not_saved"], "note": "Proved for every correct compression library whose decompressor stops at the end of a stream. Missing: changes to a file that was opened and not let go of (they are lost: changes_to_existing_lost), closing a file in which nothing was stored (unused_file_is_no_container), containers whose size is a multiple of 16384 (multiple_not_saved), empty contents (C66)."},
  {"property": "C97", "status": "partial", "theorems": ["Verif.Format.text_tested_partial", "Verif.Format.passed_is_text", "Verif.Format.text_no_container", "Verif.Format.good_infobase_passes_partial", "Verif.Format.passed_infobase", "Verif.Format.tested_or_reported", "Verif.Format.checkFields_spec", "Verif.Format.checkSchema_spec", "Verif.Format.never_false", "Verif.Format.container_never_passes", "Verif.Format.sound_container_undefined", "Verif.Format.broken_inner_passes", "Verif.Format.empty_container_reported", "Verif.Format.cyrillic_reported", "Verif.Format.excluded_reported", "Verif.Format.files_not_tested", "Verif.Format.empty_sheet_reported"], "note": "Values that are no containers and have at most 10 MiB are tested exactly, except bracket texts whose first fifteen bytes cut a character, which are reported although they can be read (finding). Containers never pass (finding), so what the statement says of them is refuted."},
  {"property": "C98", "status": "partial", "theorems": ["Verif.TableList.list_tested_partial", "Verif.TableList.tables_tested_partial", "Verif.TableList.no_list_reported", "Verif.TableList.usual_list_reported", "Verif.TableList.fields_not_tested", "Verif.TableList.short_entry_undefined", "Verif.TableList.unreadable_list_reported", "Verif.TableList.wrong_fields_reported"], "note": "Proved for every value of the variable that was given none, for names in ASCII and lists whose entries have three elements: the test succeeds exactly if every required table is there, and reports an error otherwise; a missing table PARAMS or record is reported. Missing: names beyond ASCII. Negative: lists that begin as the platform writes them are always reported; the names of the fields may not be compared; a short entry is undefined."},
  {"property": "C99", "status": "partial", "theorems": ["Verif.Temp.undisturbed_streams_partial", "Verif.Temp.exit_removes_all", "Verif.Temp.leftovers_removed", "Verif.Temp.closed_kept_alone", "Verif.Temp.lost_after_exit", "Verif.Temp.closed_lost_after_start", "Verif.Temp.files_stay"], "note": "Proved for all schedules, whatever happened before the process began, in which from then on no other process makes its first temporary stream and none that made one ends normally: the process sees byte arrays (with the uses property C94 allows); the end of a process leaves no files, and leftovers of killed ones are removed. Negative: otherwise contents are lost without an error; files of destroyed streams stay. POSIX semantics; each function is taken to be atomic."}
]}

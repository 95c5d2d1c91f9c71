{"id": "C01", "title": "Container build/read round trip", "statement": "Writing a directory into a 1C container (container_writer.build / Container.build, raw entries) and reading that file back (Container.read) yields exactly the same file names, in the order they were written, each with exactly the same bytes and the timestamps that were stored, whatever the number of files and whatever their contents; when the files together are too large for the format, the build fails instead of producing a file that reads back differently.", "quantifier": "every non-empty list of files: all distinct names without NUL, all byte contents, all counts (including tables of contents spilling over several blocks), all timestamps", "why_tests_cant": "sizes, padding and table-of-contents spill interact; the space of (count, size, content) is infinite", "anchors": ["src/v8unpack/container.py:Container.build", "src/v8unpack/container.py:Container.read_files", "src/v8unpack/container.py:Container.write_table_off_content", "src/v8unpack/container_doc.py:Document.write_block", "src/v8unpack/container_doc.py:Document._read_gen"]}
{"id": "C02", "title": "64-bit container round trip", "statement": "The same round trip holds for the 64-bit container format used by 8.3.15+ (Container64) when the container is the first in the file.", "quantifier": "every non-empty list of files and contents", "why_tests_cant": "as C01, with different widths and a table-of-contents block of 65536 bytes that tests rarely overflow", "anchors": ["src/v8unpack/container.py:Container64"]}
{"id": "C03", "title": "Two-container files round trip", "statement": "A product made of two containers (folders 0 and 1) that is built with container_writer.build reads back, with container_reader.extract, as the same two folders.", "quantifier": "every pair of non-empty file lists", "why_tests_cant": "depends on offsets of the second container relative to every possible length of the first", "anchors": ["src/v8unpack/container_writer.py:build", "src/v8unpack/container_reader.py:extract", "src/v8unpack/container.py:Container.write_table_off_content"]}
{"id": "C04", "title": "Extraction finds every container and then stops", "statement": "container_reader.extract on a file produced by container_writer.build from one folder finds exactly one container: it neither stops before it nor runs past it (looping for ever or failing on trailing bytes).", "quantifier": "every built file", "why_tests_cant": "the size computed while reading is a formula over block counts; an under-count makes the loop read garbage, only for some counts/sizes", "anchors": ["src/v8unpack/container_reader.py:extract", "src/v8unpack/container.py:Container.read_files", "src/v8unpack/container_doc.py:Document._read_gen"]}
{"id": "C05", "title": "Fragmented documents are reassembled", "statement": "Reading a document that is stored as a chain of blocks at arbitrary places in the container returns the concatenation of the block payloads cut to the declared size, regardless of padding in the last block and of where the blocks lie; an empty first block is reported as an error.", "quantifier": "every partition of a document into blocks, every placement of the blocks, every surrounding bytes", "why_tests_cant": "1C itself produces arbitrary fragmentations; tests hold a few sample files", "anchors": ["src/v8unpack/container_doc.py:Document._read_gen", "src/v8unpack/container_doc.py:Document.read_block"]}
{"id": "C06", "title": "Adding a file never changes files already added", "statement": "While a container is being written, adding one more document leaves every byte written before it unchanged, so every earlier document stays readable with the same content.", "quantifier": "every history of add operations", "why_tests_cant": "an invariant over all histories of writes", "anchors": ["src/v8unpack/container.py:Container.add_file", "src/v8unpack/container_doc.py:Document.write_block"]}
{"id": "C07", "title": "Block header fields survive the text encoding", "statement": "The three numbers stored in a block header (document size, block size, next block) read back as written for every value the format can hold, and a value that does not fit is rejected rather than stored wrongly.", "quantifier": "every natural number in each of the three fields, both widths", "why_tests_cant": "2^32 / 2^64 values; overflow needs multi-gigabyte files", "anchors": ["src/v8unpack/container.py:Container.int2hex", "src/v8unpack/container.py:Container64.int2hex", "src/v8unpack/container_doc.py:Document.write_block", "src/v8unpack/container_doc.py:Document.read_block"]}
{"id": "C08", "title": "Streaming decompression loses nothing", "statement": "Decompressing an entry in 8 KiB portions produces exactly the bytes a one-shot inflate of the whole entry would produce.", "quantifier": "every compressed stream, every portioning of the stream, every pattern of how much output each portion yields", "why_tests_cant": "the loop stops at the first portion that yields no output; which streams trigger it depends on where block boundaries fall", "anchors": ["src/v8unpack/container_reader.py:decompress_file_and_extract"]}
{"id": "C09", "title": "Compression portions do not matter", "statement": "The bytes stored for an entry depend only on the content of the source file: reading it in 512-byte portions stores the same stream as compressing it at once, and copying block data in portions copies exactly the data.", "quantifier": "every content length and every portion size", "why_tests_cant": "boundary lengths (multiples of 512, empty)", "anchors": ["src/v8unpack/container_doc.py:Document.compress", "src/v8unpack/container_doc.py:Document.write_block_data"]}
{"id": "C10", "title": "Brace file round trip", "statement": "For every well-formed tree of 1C values (nested lists of raw tokens and quoted strings, with any text including braces, commas, newlines and doubled quotes inside quoted strings), serialising it to the brace format and parsing the text back returns the same tree.", "quantifier": "every tree of any depth and width, every string content", "why_tests_cant": "infinite nesting and string contents; the parser is a hand-written line-based state machine", "anchors": ["src/v8unpack/json_container_decoder.py:JsonContainerDecoder.decode_file", "src/v8unpack/json_container_decoder.py:JsonContainerDecoder.encode_root_object"]}
{"id": "C11", "title": "Long strings survive the brace serializer", "statement": "Serialising never alters a quoted string, whatever its length and alphabet.", "quantifier": "every quoted string", "why_tests_cant": "the serializer guesses that a long string is base64 by trying to decode it; whether it succeeds depends on counts modulo 4 of alphabet characters", "anchors": ["src/v8unpack/json_container_decoder.py:JsonContainerDecoder.encode_object"]}
{"id": "C12", "title": "Embedded binary (#base64) values survive", "statement": "A value stored as an embedded base64 blob is re-serialised in the platform line layout (first line 72 characters, then 64 per line) and parses back to the same value.", "quantifier": "every base64 payload of every length", "why_tests_cant": "line-boundary arithmetic over all lengths", "anchors": ["src/v8unpack/json_container_decoder.py:JsonContainerDecoder.encode_object", "src/v8unpack/json_container_decoder.py:JsonContainerDecoder.decode_b64_line"]}
{"id": "C13", "title": "Re-serialisation is stable", "statement": "If a text was produced by the serializer from a well-formed tree, then parsing and serialising it again reproduces the text byte for byte, however many times it is repeated.", "quantifier": "every well-formed tree and every number of repetitions", "why_tests_cant": "repetition and all trees", "anchors": ["src/v8unpack/json_container_decoder.py:JsonContainerDecoder.encode_object", "src/v8unpack/json_container_decoder.py:JsonContainerDecoder.decode_object"]}
{"id": "C14", "title": "Truncated or malformed brace text is rejected", "statement": "A brace file cut in the middle (unterminated string or unclosed brace) is reported as an error, never returned as a complete value.", "quantifier": "every proper prefix of every serialised text", "why_tests_cant": "all cut points of all texts", "anchors": ["src/v8unpack/json_container_decoder.py:JsonContainerDecoder.decode_file"]}
{"id": "C15", "title": "Module code splitting round trip", "statement": "Splitting a module text into include-area files and then inlining them back gives the original module text, for every text with balanced, distinctly named include areas.", "quantifier": "every module text, any nesting of areas", "why_tests_cant": "areas nest arbitrarily, names map to relative paths; interplay of path conventions", "anchors": ["src/v8unpack/organizer_code.py:OrganizerCode.unpack", "src/v8unpack/organizer_code.py:OrganizerCode.pack_file", "src/v8unpack/organizer_code.py:OrganizerCode.parse_include_path"]}
{"id": "C16", "title": "Two areas never silently collapse", "statement": "Splitting a module never loses text: either every line of the module is in exactly one of the written files, or an error is raised.", "quantifier": "every module text, including repeated area names", "why_tests_cant": "duplicates and special names need adversarial inputs", "anchors": ["src/v8unpack/organizer_code.py:OrganizerCode.unpack"]}
{"id": "C17", "title": "Unbalanced areas are reported", "statement": "A module with an include area that is never closed or closed more often than opened is reported as an error, not written.", "quantifier": "every line sequence", "why_tests_cant": "all bracket sequences", "anchors": ["src/v8unpack/organizer_code.py:OrganizerCode.unpack"]}
{"id": "C18", "title": "Version resolution picks the newest not-newer file", "statement": "When files of several versions (descents) exist for one name, building with version d uses the file with the greatest version that does not exceed d; if there is none the oldest-available rule or an error applies, never a file of another name.", "quantifier": "every directory listing, every name, every version d", "why_tests_cant": "all listings; sibling names that extend each other", "anchors": ["src/v8unpack/helper.py:get_near_descent_file_name"]}
{"id": "C19", "title": "Saving at one version does not disturb older versions", "statement": "Extracting a product at version d and later extracting another state at version d2 > d leaves the result of building at version d (and any version below d2) unchanged.", "quantifier": "every history of extractions with increasing versions and every version d asked for later", "why_tests_cant": "unbounded histories of saves", "anchors": ["src/v8unpack/organizer_file_ce.py:OrganizerFileCE.unpack_get_descent_filename", "src/v8unpack/organizer_file_ce.py:OrganizerFileCE.pack_get_descent_filename", "src/v8unpack/organizer_file.py:OrganizerFile.unpack"]}
{"id": "C20", "title": "What was saved at version d is what is built at version d", "statement": "After extracting a file at version d, building at version d uses exactly the content that was extracted, whether or not the file was physically written (it is skipped when equal to its nearest older version).", "quantifier": "every file history, every content", "why_tests_cant": "skip-if-equal logic over all histories", "anchors": ["src/v8unpack/organizer_file_ce.py:OrganizerFileCE.unpack_get_descent_filename", "src/v8unpack/organizer_file_ce.py:OrganizerFileCE.pack_get_descent_filename"]}
{"id": "C21", "title": "Version suffix can be removed again", "statement": "Adding a version suffix to a file name and removing it returns the original name; names without suffix are returned unchanged.", "quantifier": "every file name and version", "why_tests_cant": "names with several dots, purely numeric parts", "anchors": ["src/v8unpack/helper.py:get_descent_file_name", "src/v8unpack/helper.py:remove_descent_from_filename"]}
{"id": "C22", "title": "Index updates only add", "statement": "Updating an index with the files of a source tree never changes or deletes an existing entry; it adds every missing file and is idempotent.", "quantifier": "every index tree and every file list", "why_tests_cant": "tree shapes are unbounded; repeated application", "anchors": ["src/v8unpack/index.py:update_index"]}
{"id": "C23", "title": "Index lookup: exact entry first, then wildcard", "statement": "The destination of a file is decided by its exact index entry when there is one, otherwise by the \"*\" entry of its own folder, otherwise the file stays where it is; building reads it from the same place.", "quantifier": "every index tree and path", "why_tests_cant": "all trees and paths", "anchors": ["src/v8unpack/index.py:get_from_index", "src/v8unpack/index.py:get_dest_path"]}
{"id": "C24", "title": "Files of an indexed product are all packed", "statement": "Packing with an index copies every indexed file exactly once (no file that the index lists is dropped, none listed as excluded is packed), and unindexed files are packed from their own folder.", "quantifier": "every index, every source tree", "why_tests_cant": "all index/source combinations", "anchors": ["src/v8unpack/organizer_file.py:OrganizerFile._pack_index", "src/v8unpack/organizer_file.py:OrganizerFile._pack", "src/v8unpack/organizer_file.py:OrganizerFile.pack"]}
{"id": "C25", "title": "Parallel conversion is order independent", "statement": "Decoding or encoding tasks run in a process pool give the same set of results whatever order the workers finish in; a failing task makes the whole run fail.", "quantifier": "every completion order (permutation) of every task list", "why_tests_cant": "all schedules", "anchors": ["src/v8unpack/helper.py:run_in_pool", "src/v8unpack/helper.py:run_in_pool_encode_include"]}
{"id": "C26", "title": "Every nested object is encoded exactly once, children before parents", "statement": "When a product is assembled, every object of the object tree is encoded exactly once, and only after all its nested objects have been encoded and their identifiers handed to it.", "quantifier": "every object tree, every completion order at each level", "why_tests_cant": "all trees and schedules", "anchors": ["src/v8unpack/decoder.py:Decoder.encode", "src/v8unpack/helper.py:run_in_pool_encode_include"]}
{"id": "C27", "title": "Order of nested objects is restored", "statement": "The list of nested objects written to a parent header is in the recorded order (by identifier), independent of the order in which workers delivered them; with automatic inclusion it is in name order.", "quantifier": "every list of nested objects and every delivery order", "why_tests_cant": "all permutations", "anchors": ["src/v8unpack/MetaObject/__init__.py:MetaObject.fill_header_include", "src/v8unpack/MetaObject/__init__.py:MetaObject.fill_header_includes"]}
{"id": "C28", "title": "Directive escaping round trip", "statement": "The region and compilation directives of form modules (and of modules of versions 8.1 and 8.2) are commented out with a marker on build and uncommented on extraction: build followed by extraction returns the source code, extraction followed by build returns the stored code.", "quantifier": "every module text", "why_tests_cant": "all texts, including those that contain the escape marker already", "anchors": ["src/v8unpack/MetaObject/__init__.py:MetaObject.decode_code", "src/v8unpack/MetaObject/__init__.py:MetaObject.encode_code"]}
{"id": "C29", "title": "Form code quoting round trip", "statement": "The code of a form, stored with doubled quotes inside the form file, is written to the module file unquoted and put back unchanged.", "quantifier": "every code text", "why_tests_cant": "all texts", "anchors": ["src/v8unpack/MetaDataObject/Form/FormCore.py"]}
{"id": "C30", "title": "Form element tree round trip", "statement": "Taking child elements out of a form element into separate files and putting them back on build gives the original raw form data.", "quantifier": "every element list length and content, every nesting", "why_tests_cant": "raw data is positional; off-by-one in offsets only shows for some counts", "anchors": ["src/v8unpack/MetaDataObject/Form/FormElements4/FormElement.py", "src/v8unpack/helper.py:calc_offset"]}
{"id": "C31", "title": "Form pages round trip", "statement": "Splitting the pages of a panel of an ordinary form into named pages and putting them back preserves the page list.", "quantifier": "every page count and trailing data", "why_tests_cant": "positional arithmetic", "anchors": ["src/v8unpack/MetaDataObject/Form/FormElements27/Panel.py"]}
{"id": "C32", "title": "Form include areas round trip", "statement": "Moving elements of a form that belong to an include area into the shared file and merging them back gives the same element data.", "quantifier": "every element tree and every set of areas", "why_tests_cant": "all trees", "anchors": ["src/v8unpack/organizer_form_elem.py:OrganizerFormElem"]}
{"id": "C33", "title": "Object prefix round trip", "statement": "With the prefix option, the prefix stripped from object names on extraction is put back on build for every object that had it.", "quantifier": "every object name, every nesting level", "why_tests_cant": "all names and levels", "anchors": ["src/v8unpack/helper.py:decode_header", "src/v8unpack/helper.py:encode_header"]}
{"id": "C34", "title": "Names and strings quoting round trip", "statement": "str_decode/str_encode are inverse on every string: quoting for the brace format and unquoting returns the string.", "quantifier": "every string", "why_tests_cant": "all strings including quotes", "anchors": ["src/v8unpack/helper.py:str_encode", "src/v8unpack/helper.py:str_decode"]}
{"id": "C35", "title": "Errors keep their class, message and history", "statement": "Wrapping an exception any number of times, by handlers that give no message of their own, keeps the class and the message of the innermost application error and adds one stack entry per level; a handler with its own message replaces message and class, but never loses stack entries.", "quantifier": "every chain of wraps", "why_tests_cant": "unbounded chains", "anchors": ["src/v8unpack/ext_exception.py:ExtException"]}
{"id": "C36", "title": "Version compatibility check", "statement": "Building a source tree is refused exactly when the tree was extracted with an incompatible version of the tool.", "quantifier": "every pair of version strings", "why_tests_cant": "all pairs", "anchors": ["src/v8unpack/helper.py:check_version"]}
{"id": "C37", "title": "Text encoding detection", "statement": "A file starting with a byte order mark is read with that encoding, whichever of the overlapping marks it is; other files use the default. The encoding recorded for a module is the one its bytes are in.", "quantifier": "every byte prefix", "why_tests_cant": "overlapping marks (utf-16-le vs utf-32-le)", "anchors": ["src/v8unpack/helper.py:detect_by_bom"]}
{"id": "C38", "title": "Timestamps round trip", "statement": "The timestamps written to a container read back as the same instant (to 100 microseconds) and out-of-range values saturate.", "quantifier": "every timestamp", "why_tests_cant": "all values", "anchors": ["src/v8unpack/container_doc.py:epoch2int", "src/v8unpack/container.py:Container.parse_datetime"]}
{"id": "C39", "title": "Handler choice by platform version", "statement": "The right object handler is selected from the version file for every product kind and platform version; unknown versions are refused.", "quantifier": "every version-file content", "why_tests_cant": "decision table over all values", "anchors": ["src/v8unpack/decoder.py:Decoder.get_handler_by_version_file"]}
{"id": "C40", "title": "Transient permission errors are retried, permanent ones reported", "statement": "Creating a directory or writing a text file survives up to the allowed number of consecutive permission errors and reports the failure otherwise; other errors are reported at once.", "quantifier": "every sequence of outcomes of the operating system calls", "why_tests_cant": "all failure schedules", "anchors": ["src/v8unpack/helper.py:makedirs", "src/v8unpack/helper.py:txt_write"]}
{"id": "C41", "title": "Batch mode processes exactly the enabled products", "statement": "build_all / extract_all process every product that is not disabled, in order, and with an explicit product code exactly that product.", "quantifier": "every product table and product code", "why_tests_cant": "all tables", "anchors": ["src/v8unpack/v8unpack.py:build_all", "src/v8unpack/v8unpack.py:extract_all"]}
{"id": "C42", "title": "Index merging: main index wins, nothing is lost", "statement": "Merging sub-indexes into the main index keeps every entry of the main index, adds every sub-index entry not in conflict, and is idempotent.", "quantifier": "every pair of nested dictionaries", "why_tests_cant": "all nested dictionaries", "anchors": ["src/v8unpack/helper.py:update_dict", "src/v8unpack/helper.py:check_index"]}
{"id": "C43", "title": "Digest file covers every file in name order", "statement": "The versions table written to configinfo lists every stored file except configinfo itself exactly once, in name order, with the digest of the stored bytes, independent of the order the directory is listed.", "quantifier": "every directory content with at least one file besides configinfo, and every listing order", "why_tests_cant": "all listings", "anchors": ["src/v8unpack/container_writer.py:calc_sha1"]}
{"id": "C44", "title": "Extension of an embedded file is taken from its comment", "statement": "The extension of the file an embedded picture or template is written to is the last word of the object comment when that word has one to five characters, all letters or digits, and bin otherwise; extraction and build agree on it.", "quantifier": "every comment", "why_tests_cant": "all strings", "anchors": ["src/v8unpack/helper.py:get_extension_from_comment"]}
{"id": "C45", "title": "A form that cannot be split is kept verbatim", "statement": "When taking a form apart fails at any point, the form data written out are the raw data as read, so that building returns the original form.", "quantifier": "every raw form and every failure point", "why_tests_cant": "crash points inside the element decoder", "anchors": ["src/v8unpack/MetaDataObject/Form/FormCore.py"]}
{"id": "C46", "title": "Extracting with a version keeps the other versions", "statement": "Extracting a product into a source folder in version (descent) mode leaves the files of other versions in that folder in place.", "quantifier": "every state of the destination folder", "why_tests_cant": "all folder states", "anchors": ["src/v8unpack/organizer_file.py:OrganizerFile.unpack", "src/v8unpack/helper.py:clear_dir"]}
{"id": "C47", "title": "Every file is presented once under its logical name", "statement": "Listing a source folder in version mode presents every file of it under its name without version suffix, each such name exactly once however many versions exist, and leaves no file out.", "quantifier": "every folder listing", "why_tests_cant": "all listings", "anchors": ["src/v8unpack/organizer_file_ce.py:OrganizerFileCE.list_descent_dir", "src/v8unpack/helper.py:remove_descent_from_filename"]}
{"id": "C48", "title": "Every nested object is decoded exactly once", "statement": "When a container is taken apart, every object of the object tree is decoded exactly once, whatever order the workers finish in; if one object cannot be decoded the extraction fails.", "quantifier": "every object tree, every completion order of every round", "why_tests_cant": "all trees and schedules", "anchors": ["src/v8unpack/decoder.py:Decoder.decode", "src/v8unpack/MetaDataObject/__init__.py:MetaDataObject.set_write_decode_mode", "src/v8unpack/helper.py:run_in_pool"]}
{"id": "C49", "title": "Module files survive extraction and build", "statement": "The bytes of a module (text, encoding, byte order mark, line ends) are the same after extraction and build, for every encoding the tool knows and for binary modules.", "quantifier": "every module content, both platforms, file and folder storage", "why_tests_cant": "all byte strings", "anchors": ["src/v8unpack/MetaObject/__init__.py:MetaObject.read_raw_code", "src/v8unpack/MetaObject/__init__.py:MetaObject.write_raw_code", "src/v8unpack/MetaObject/__init__.py:MetaObject.decode_code", "src/v8unpack/MetaObject/__init__.py:MetaObject.write_encode_code"]}
{"id": "C50", "title": "Protected modules are kept", "statement": "A module stored in protected form (image instead of text) is written to the sources as a binary file and put back on build.", "quantifier": "every protected module", "why_tests_cant": "all contents and file combinations", "anchors": ["src/v8unpack/MetaObject/__init__.py:MetaObject.decode_code", "src/v8unpack/MetaObject/__init__.py:MetaObject.write_encode_code"]}
{"id": "C51", "title": "The container that is taken apart does not depend on the file system", "statement": "When a file holds one or two containers, extraction always takes apart the same one, whatever order the operating system lists the intermediate directory in; other counts are refused.", "quantifier": "every directory listing order", "why_tests_cant": "listing order differs between file systems", "anchors": ["src/v8unpack/decoder.py:decode"]}
{"id": "C52", "title": "Embedded binary data survives", "statement": "Pictures, binary templates, help pages and the splash screen, stored as base64 text, are written to the sources as plain files and built back to the same text.", "quantifier": "every stored file and every content", "why_tests_cant": "all contents, including empty data, missing data and unusual markers", "anchors": ["src/v8unpack/MetaObject/__init__.py:MetaObject._extract_b64_data", "src/v8unpack/MetaObject/__init__.py:MetaObject._encode_html_data", "src/v8unpack/MetaDataObject/CommonPicture.py", "src/v8unpack/MetaDataObject/Template.py", "src/v8unpack/MetaObject/Configuration.py:Configuration._decode_images"]}
{"id": "C53", "title": "Ordinary forms round trip", "statement": "Taking an ordinary form (attributes, pages, elements, nested panels) apart into named sources and building it gives the original form.", "quantifier": "every ordinary form, every number of attributes, pages and elements, every nesting of panels", "why_tests_cant": "all trees; positional arithmetic; collisions of names", "anchors": ["src/v8unpack/MetaDataObject/Form/FormElements27/FormElements27.py", "src/v8unpack/MetaDataObject/Form/FormElements27/Panel.py", "src/v8unpack/MetaDataObject/Form/FormElements27/FormElement.py", "src/v8unpack/MetaDataObject/Form/FormElements26/FormElement.py"]}
{"id": "C54", "title": "A shared area is merged into the forms that use it", "statement": "When the build merges the shared file of an area into a form, every element of the file gets exactly its data from the file, under the path of the group; nothing else in the form changes. This holds for include_ groups and for the read-only includr_ groups.", "quantifier": "every tree, every file, every group path", "why_tests_cant": "all trees and paths; the two kinds of groups name their paths differently", "anchors": ["src/v8unpack/organizer_form_elem.py:OrganizerFormElem._pack_get_areas", "src/v8unpack/organizer_form_elem.py:OrganizerFormElem._append_area_data"]}
{"id": "C55", "title": "Product version and version marks", "statement": "A build writes the product version (version.bin) to the version of an extension and behind the mark ver: of comments (with the file name for root objects); comments without the mark, and everything else in the objects, stay as they are; repeating a build changes nothing more, and extracting an extension and building it returns its version.", "quantifier": "every header, every comment, every version text, any number of build and extraction rounds", "why_tests_cant": "all texts and histories", "anchors": ["src/v8unpack/MetaObject/__init__.py:MetaObject.set_product_comment", "src/v8unpack/MetaObject/__init__.py:MetaObject.set_product_info", "src/v8unpack/MetaObject/Configuration.py:Configuration.set_product_version", "src/v8unpack/MetaObject/ConfigurationExtension.py", "src/v8unpack/MetaDataObject/DataProcessor.py", "src/v8unpack/decoder.py:encode"]}
{"id": "C56", "title": "The compatibility mode option", "statement": "With the option version the compatibility mode of the extracted sources and of the built file is the one asked for and nothing else in the header changes; without it the mode recorded in the sources is built and extraction followed by build returns the mode of the file. The option prefix likewise replaces only the prefix of an extension.", "quantifier": "every header, every option value", "why_tests_cant": "all values", "anchors": ["src/v8unpack/MetaObject/Configuration.py:Configuration.decode", "src/v8unpack/MetaObject/Configuration.py:Configuration.encode", "src/v8unpack/MetaObject/ConfigurationExtension.py", "src/v8unpack/decoder.py:Decoder.decode"]}
{"id": "C57", "title": "Lists of nested objects survive", "statement": "The lists of nested objects in the raw data of an object (identifiers of objects with files of their own, or the data of objects kept inside) come back from extraction followed by build as they were, in whatever order the nested objects are delivered; extraction finds every listed object of a known type once, and two lists of one type are an error instead of a mixture. With auto_include the lists are rebuilt from the folders: every delivered object once, in the order of the names.", "quantifier": "every list of lists, any number of types and objects, every delivery order", "why_tests_cant": "all lists and all orders of completion", "anchors": ["src/v8unpack/MetaObject/__init__.py:MetaObject.decode_include", "src/v8unpack/MetaObject/__init__.py:MetaObject.fill_header_includes", "src/v8unpack/MetaObject/__init__.py:MetaObject.fill_header_include", "src/v8unpack/MetaDataObject/core/IncludeSimple.py:IncludeSimple", "src/v8unpack/MetaDataObject/__init__.py:MetaDataObject.encode"]}
{"id": "C58", "title": "JSON files of the sources", "statement": "Every description, index or converted brace file written as JSON is read back as the value that was written, on every platform; different values have different files; and a file that lost its end at any byte (a crash while writing) is refused, never read as a complete value.", "quantifier": "every value (lists, dicts, texts with any characters, numbers), every cut point, both platforms", "why_tests_cant": "all values and all crash points", "anchors": ["src/v8unpack/helper.py:json_write", "src/v8unpack/helper.py:json_read", "src/v8unpack/json_container_decoder.py:JsonContainerDecoder.encode", "src/v8unpack/index.py"]}
{"id": "C59", "title": "The file of an object survives extraction and build byte for byte", "statement": "For the file of any metadata object that extraction can take apart (any name, languages, comment, nested lists; with or without auto_include), building from the two JSON files extraction wrote gives a file with exactly the data that were read, under the same identifier, whichever platforms extraction and build run on; a file in the layout of the serializer comes back with the same bytes. Conditions: the prefix option is the one of the object, and every nested object delivers what stood in the list (with auto_include also: lists in the order of names).", "quantifier": "all brace files, object classes, headers, languages, nested lists, delivery orders, prefixes, platforms", "why_tests_cant": "brace parser, text encodings, header, lists and JSON are composed; a test sees a few files of a few configurations", "anchors": ["src/v8unpack/helper.py:brace_file_read", "src/v8unpack/helper.py:brace_file_write", "src/v8unpack/MetaDataObject/__init__.py:MetaDataObject.decode", "src/v8unpack/MetaDataObject/__init__.py:MetaDataObject.encode", "src/v8unpack/MetaObject/__init__.py:MetaObject.decode_header"]}
{"id": "C60", "title": "All the files of an object survive", "statement": "For every object class (catalogs, documents, registers, reports, modules, roles, services and the rest of the table) extraction followed by build writes exactly the files of the object that belong to the class, each once and with the same bytes: its own file, its modules (as a file or as a folder), help page, predefined data, flowchart, info file; whichever of them exist and whichever platforms extraction and build run on. A file with a suffix the class does not know is not written. No class of the tool has two parts with the same name.", "quantifier": "all object classes of the table, all containers, all module texts and encodings, every subset of present files, platforms", "why_tests_cant": "every class has its own suffixes and every file may be present or absent; a test sees the few combinations of its sample configuration", "anchors": ["src/v8unpack/MetaDataObject/core/Container.py:Container.decode_object", "src/v8unpack/MetaDataObject/core/Simple.py:Simple", "src/v8unpack/MetaDataObject/core/SimpleWithInfo.py:SimpleWithInfo", "src/v8unpack/MetaObject/__init__.py:MetaObject.decode_code", "src/v8unpack/MetaObject/__init__.py:MetaObject.encode_code", "src/v8unpack/MetaDataObject/__init__.py:MetaDataObject.encode"]}
{"id": "C61", "title": "A tree of nested objects survives", "statement": "Extract an object with everything nested in it, at any depth and of any mixture of classes (with files of their own, forms, pictures and templates, or commands kept inside the data of their parent), then build: the parent gets back what stood in its list, and the files written are exactly the files of the container that belong to the objects of the tree, each with its content, whatever the order in which the workers deliver nested objects, with and without auto_include (then the lists must have been in the order of names), with a prefix or without, on any platforms. Names that belong to no object of the tree are not written. The type table maps names and identifiers one to one.", "quantifier": "all trees of objects (any depth, any number of nested objects, any classes of the table), all containers, delivery orders, options, platforms", "why_tests_cant": "the number of trees, of delivery orders and of class combinations is unbounded; a test has one configuration and one schedule", "anchors": ["src/v8unpack/decoder.py:Decoder.decode", "src/v8unpack/decoder.py:Decoder.encode", "src/v8unpack/MetaDataObject/__init__.py:MetaDataObject.set_write_decode_mode", "src/v8unpack/decoder.py:Decoder.encode_include", "src/v8unpack/MetaObject/__init__.py:MetaObject.decode_includes", "src/v8unpack/MetaObject/__init__.py:MetaObject.encode_includes", "src/v8unpack/MetaDataObject/__init__.py:MetaDataObject.decode", "src/v8unpack/MetaDataObject/__init__.py:MetaDataObject.encode", "src/v8unpack/MetaDataObject/core/IncludeSimple.py:IncludeSimple", "src/v8unpack/metadata_types.py:MetaDataTypes"]}
{"id": "C62", "title": "A whole product survives", "statement": "Extracting a container folder and building the sources again with the same version of the tool, without options that change the product, chooses the same product class and gives exactly the files of the product and of every object nested in it, each with its content, and no other file except a new `versions` that lists exactly the files that were built (for an extension a new `configinfo` with the version row and copyinfo of the old one).", "quantifier": "every configuration, extension, external data processor and external report with nested objects to any depth of any of the modelled classes, with or without auto_include and a prefix, every completion order of the workers, every random identifier, extraction and build on Windows or Unix", "why_tests_cant": "the product, its lists in several groups, and the nested objects are handled by separate worker processes that communicate through files, lists and JSON only", "anchors": ["src/v8unpack/decoder.py:Decoder.decode", "src/v8unpack/decoder.py:Decoder.encode", "src/v8unpack/MetaObject/Configuration.py:Configuration", "src/v8unpack/MetaObject/ConfigurationExtension.py:ConfigurationExtension", "src/v8unpack/MetaObject/ExternalDataProcessor.py:ExternalDataProcessor", "src/v8unpack/MetaObject/__init__.py:MetaObject"]}
{"id": "C63", "title": "Pictures, templates, web service references and accounting registers survive", "statement": "A common picture, a template of any type (table, binary data, ActiveX document, html page, text, geographical scheme, data composition scheme, appearance template, graphical scheme, add-in), a common template, a web service reference: extraction puts the image into a file with the extension named in the comment, a text into .txt, a page into .html, tables and schemes unchanged into .mxl or .bin, binary data unchanged into .c1b64, the folder of a reference unchanged under the name of the reference; the description says the type; build gives back exactly the files uuid and uuid.0 with their content. Identifier, name and comment are taken from the place of the header that belongs to the class and, for an accounting register, to its format number (above 21 or not).", "quantifier": "all pictures, templates of all types, references and accounting registers, all image and template data, comments, prefixes, platforms of extraction and build", "why_tests_cant": "the data are arbitrary binary files, the extension is free text in a comment that can collide with the files of the tool itself, and every type has its own way of storing; tests have a few samples", "anchors": ["src/v8unpack/MetaDataObject/CommonPicture.py:CommonPicture", "src/v8unpack/MetaDataObject/Template.py:Template2", "src/v8unpack/MetaDataObject/CommonTemplate4.py:CommonTemplate4", "src/v8unpack/MetaDataObject/WSReference.py:WSReference", "src/v8unpack/MetaDataObject/AccountingRegister.py:AccountingRegister", "src/v8unpack/helper.py:get_extension_from_comment"]}
{"id": "C64", "title": "Forms survive extraction and building, with their code and their elements", "statement": "A form that is extracted and built again has the files uuid, uuid.0 and uuid.1 in the container byte for byte as before and nothing else, whichever of the 21 classes of forms it belongs to: a managed form (one file with the module in it), an ordinary form (a folder with the form and its module), a form whose elements cannot be taken apart, a form of an unknown version. The module is in the sources as a text file of its own; a module edited there is the only thing that changes in the built form.", "quantifier": "every form object of every class, every content of its files in the serializer layout, every module text, every edit of the module, every options", "why_tests_cant": "forms are unbounded nested data in several files; the tests build a few of them", "anchors": ["src/v8unpack/MetaDataObject/Form/FormCore.py:FormCore", "src/v8unpack/MetaDataObject/Form/__init__.py:Form.get_form_root", "src/v8unpack/MetaDataObject/Form/FormElements4/FormElements4.py", "src/v8unpack/MetaDataObject/Form/FormElements27/FormElements27.py", "src/v8unpack/MetaObject/__init__.py:read_raw_code"]}
{"id": "C65", "title": "A product file taken apart has the files it was built of", "statement": "A product file built from a folder of files and module folders and below 2 GiB is taken apart into exactly one container that holds every name of the folder, each file with its bytes and each module folder with its files, and nothing else; only configinfo differs, in which the placeholder is replaced by the table of digests; the build succeeds whenever the stored files fit.", "quantifier": "every folder of files and module folders (names fit for a container, distinct), every order of the listing, all file times, every zlib that inverts itself and gives output for its input", "why_tests_cant": "a test compares a few products; the statement is about every folder, every listing order and every stream cut into portions of 8192 bytes", "anchors": ["src/v8unpack/v8unpack.py:extract,build", "src/v8unpack/container_reader.py:decompress_and_extract,decompress_file_and_extract", "src/v8unpack/container_writer.py:compress_and_build,calc_sha1", "src/v8unpack/container.py:Container.extract_file,Container.build"]}
{"id": "C66", "title": "A folder laid out as sources is put together again as it was", "statement": "After extraction has laid out a folder of files, modules and files of form elements as sources (shared areas of modules and forms going to their own files outside the source folder), building puts together exactly the same files under the same paths: copies and modules byte for byte, files of elements with the same elements; whatever was in the source folder before, whatever the order of the listing and of the tasks in the pool. Nothing outside the source folder is touched but the files of the areas, and the result of the extraction does not depend on the schedule.", "quantifier": "every folder of any number of files, all modules with balanced areas and all forms with areas for groups, every content of the computer before, every schedule of the module and form tasks, with and without CR LF translation", "why_tests_cant": "a test lays out a few files one after the other; sharing between modules and the order of a pool range over all folders and schedules", "anchors": ["src/v8unpack/organizer_file.py:OrganizerFile.unpack,OrganizerFile.unpack_code_file,OrganizerFile.pack,OrganizerFile._pack", "src/v8unpack/organizer_code.py:OrganizerCode", "src/v8unpack/organizer_form_elem.py:OrganizerFormElem", "src/v8unpack/helper.py:txt_write,clear_dir"]}
{"id": "C67", "title": "From a product file to a product file", "statement": "A product file is taken apart, decoded, encoded and put together into a new product file. Taken apart again, the new file has one container, which holds every file of the old one that belongs to the product or to an object nested in it, with the same content, and nothing else but versions and configinfo. The versions of a configuration, processor or report names exactly the files of the new container; the configinfo of an extension is the old version row and copyinfo with a table of the digests of the stored files. The new file can be made for every such product whose stored size is below 2^31.", "quantifier": "every configuration, extension, processor and report with everything nested in it, every level of nesting, every container layout (blocks of any size, documents in any number of blocks), every order in which workers finish and in which the folder is listed, every random identifier, with and without CR LF translation, every compressor and decompressor that agree as zlib does", "why_tests_cant": "a round-trip test compares a few sample products, with one layout, one schedule and one operating system", "anchors": ["src/v8unpack/v8unpack.py:extract,build", "src/v8unpack/container_reader.py:extract,decompress_and_extract", "src/v8unpack/container_writer.py:build,compress_and_build", "src/v8unpack/decoder.py:Decoder,decode,encode"]}
{"id": "C68", "title": "Extract and then build, with the organizer in between", "statement": "A product file is extracted into a folder of sources: taken apart, decoded, and laid out with the include areas of modules and forms in files of their own. Building that folder puts the areas back and does not fail; the JSON of form elements may be written with its keys in any order. The new product file, taken apart again, holds every file of the old one that belongs to the product or to an object nested in it, with the same content, and nothing else but versions and configinfo.", "quantifier": "every configuration, extension, processor and report with everything nested in it (as in C67), every layout of include areas outside of the folder of the sources that the organizer can restore (as in C66), every order in which tasks finish and folders are listed, every order of keys in the JSON of form elements", "why_tests_cant": "a round-trip test compares a few sample products, with one schedule and one folder order; whether the stages fit together for all of them is not decided by testing each stage", "anchors": ["src/v8unpack/v8unpack.py:extract,build", "src/v8unpack/organizer_file.py:OrganizerFile.unpack,OrganizerFile.pack", "src/v8unpack/organizer_form_elem.py:OrganizerFormElem", "src/v8unpack/decoder.py:decode,encode", "src/v8unpack/MetaObject/__init__.py:encode_includes"]}
{"id": "C69", "title": "Ordinary forms with auto_include are only renumbered", "statement": "An ordinary form that is extracted and built with the option auto_include is the same form with its elements numbered anew: in every panel they stand in the order of their pages and carry consecutive numbers, every reference to an element of the same panel follows that element, a border tied to an element that is not in the panel is tied to the element itself, the lists of what is tied to a panel and of the attributes shown by elements name the new numbers, and nothing else changes.", "quantifier": "every form in the usual shape: any number of pages, elements, attributes, anchors, any nesting of panels", "why_tests_cant": "a sample form has a handful of anchors; whether numbers, names and page order agree for all elements of all panels depends on every combination of pages, nesting and references", "anchors": ["src/v8unpack/MetaDataObject/Form/FormElements27/Panel.py:Panel.decode,Panel.encode,decode_elements,encode_elements,delete_anchored,encode_anchor_index", "src/v8unpack/MetaDataObject/Form/FormElements27/FormElement.py:FormElement", "src/v8unpack/MetaDataObject/Form/FormElements27/FormElements27.py:FormElements27"]}
{"id": "C70", "title": "Ordinary forms with auto_include are stable after one round", "statement": "What the first extraction and build with auto_include makes of an ordinary form does not change any more: extracting the built form succeeds and gives the same tree of pages and elements, the same attributes and the same paths, and building from these sources gives the same form to the last entry.", "quantifier": "every form in the usual shape: any number of pages, elements, attributes, anchors, any nesting of panels", "why_tests_cant": "a form kept in version control is extracted and built again and again; a test shows stability for one form, not for every order of pages, numbering and anchors", "anchors": ["src/v8unpack/MetaDataObject/Form/FormElements27/Panel.py:Panel.decode,Panel.encode,decode_elements,encode_elements", "src/v8unpack/MetaDataObject/Form/FormElements27/FormElements27.py:FormElements27"]}
{"id": "C71", "title": "An interrupted build never passes for a complete product", "statement": "If the process that builds a product is stopped at any byte, or the build raises an exception, then extracting the file it left either fails, or finds nothing in a file that is still empty, or gives exactly the source files; it never reports success with files missing or changed.", "quantifier": "every folder of plain files, every point at which the writing can stop (any prefix of the write calls, the last one cut at any byte), every failing build", "why_tests_cant": "the crash point ranges over every byte of every product; a test stops at a few", "anchors": ["src/v8unpack/container.py:Container.build,write_header,write_table_off_content,read_files", "src/v8unpack/container_doc.py:Document.write_block,read", "src/v8unpack/container_writer.py:build", "src/v8unpack/container_reader.py:extract"]}
{"id": "C72", "title": "Extraction writes only inside its folders", "statement": "Whatever product file is extracted, every file and folder that extraction creates lies inside the output folder or the temporary folder; a name stored in the product (of a container entry, of a metadata object, of a module area) cannot lead elsewhere.", "quantifier": "every product file (every list of entries with any names), every object header, every area name, every target folder", "why_tests_cant": "the names are attacker-chosen text of any length; tests use the names of a few honest products", "anchors": ["src/v8unpack/container.py:Container.extract", "src/v8unpack/container_reader.py:extract", "src/v8unpack/MetaDataObject/__init__.py:MetaDataObject.set_write_decode_mode", "src/v8unpack/organizer_code.py:OrganizerCode.parse_include_path"]}
{"id": "C73", "title": "Extract and build change only what they must, and depend only on their inputs", "statement": "build changes nothing but the product and the temporary folder, extract nothing but the folder of sources, the common folders and the temporary folder; a command that fails leaves the old product or the old sources as they were; a command that returns normally has done its work; the result does not depend on what was in the output, the temporary folder or elsewhere before.", "quantifier": "every file system, every set of paths given to the commands, every index, every failure of any stage", "why_tests_cant": "the file systems, the paths and the points of failure are unbounded; tests use one layout of folders and no failing stages", "anchors": ["src/v8unpack/v8unpack.py:extract", "src/v8unpack/v8unpack.py:build", "src/v8unpack/helper.py:clear_dir,check_index", "src/v8unpack/container_writer.py:build"]}
{"id": "C74", "title": "A folder laid out with an index is built back from where the index put it", "statement": "with an index, every file of the product is written to the file its entry names (seen from the folder around the sources) or to its own path in the folder of sources, the areas to their shared files, and nothing else outside is touched; building with the same index gives the same folder again: the same files under the same paths with the same content, in every order of listing and of the tasks; neither fails.", "quantifier": "every folder of modules, files of elements and other files, every index without * entries whose entries are for files of that folder, every earlier state of the disk, every order of tasks", "why_tests_cant": "indexes, folders and schedules are unbounded; tests use one index", "anchors": ["src/v8unpack/organizer_file.py:OrganizerFile.unpack,_unpack,unpack_file,unpack_code_file,pack,_pack_index,_pack_index_elem,_pack,_pack_file", "src/v8unpack/organizer_form_elem.py:_unpack_write_areas,pack", "src/v8unpack/index.py:get_dest_path"]}
{"id": "C75", "title": "A folder laid out at a version is built back at that version and at every later one", "statement": "with a version d, every file of the product is saved with d before its extension (files of elements without it), the areas of modules go to their shared files outside, and nothing else outside is touched; building at version d or any later one gives the same folder again: the same files under the same names with the same content, whatever the tasks of the pool find when they look at the folder; neither fails; building at an earlier version fails.", "quantifier": "every folder of modules, files of elements and other files whose names do not look like versions of one another, every version, every earlier state of the disk, every order in which tasks decide and write", "why_tests_cant": "folders, versions and schedules are unbounded; tests use one folder and no schedule", "anchors": ["src/v8unpack/organizer_file_ce.py:OrganizerFileCE.unpack_get_descent_filename,pack_get_descent_filename,list_descent_dir", "src/v8unpack/organizer_file.py:OrganizerFile.unpack,_unpack,unpack_file,unpack_code_file,pack,_pack,_pack_file", "src/v8unpack/helper.py:get_near_descent_file_name,remove_descent_from_filename"]}
{"id": "C76", "title": "Extract and build with a version, or with an index, give back the product", "statement": "extract a product file with a version and build the sources with that version or a later one, or extract it with an index of shared files and build with the same index: the build does not fail and gives a product file that can be extracted again and holds the same content under every name of the product, whatever order the tasks of the pools work and finish in.", "quantifier": "every product, version, later version, index of files outside the sources, container layout, order of objects and tasks, earlier state of the disk", "why_tests_cant": "products, versions, indexes and schedules are unbounded; tests extract one product one way", "anchors": ["src/v8unpack/v8unpack.py:extract,build", "src/v8unpack/organizer_file.py:OrganizerFile.unpack,pack", "src/v8unpack/organizer_file_ce.py:OrganizerFileCE", "src/v8unpack/decoder.py:Decoder,decode,encode", "src/v8unpack/container_reader.py:extract", "src/v8unpack/container_writer.py:build"]}
{"id": "C77", "title": "An index with * entries: files moved to a shared folder come back from it", "statement": "extract with an index that has * entries for folders (with entries of their own or null for exceptions): every file goes to the file of its own entry, else into the folder of the * entry beside it, else stays in its place, and nothing else outside the sources changes; build with the same index puts the same files under the same paths together again.", "quantifier": "every folder, index with * entries at any depth, exceptions, areas in modules and forms, earlier state of the disk, order of listing and of tasks", "why_tests_cant": "indexes, folders and their earlier contents are unbounded; tests have one index without *", "anchors": ["src/v8unpack/index.py:get_dest_path,_get_from_index", "src/v8unpack/organizer_file.py:_pack_index,_pack_index_elem,_unpack,unpack_file,unpack_code_file", "docs/usage.md"]}
{"id": "C78", "title": "The command line does what the functions do", "statement": "v8unpack -E and -B with paths and options have the effect of extract and build with these paths, made absolute from the current folder, and these options; the exit code is 0 exactly if the call returned normally and 1 otherwise; -EA and -BA process the enabled products in order and stop at the first failure with 1.", "quantifier": "every command, combination of options, file of products, current folder and state of the disk", "why_tests_cant": "combinations of options and states of the disk are unbounded; tests call the functions, not main", "anchors": ["src/v8unpack/v8unpack.py:main,extract_all,build_all,update_index_all", "docs/usage.md"]}
{"id": "C79", "title": "With versions and an index a folder survives extraction and build", "statement": "Sources extracted at a version with an index are put together by a build with that index at this version, or any later one, as the product was: files the index moves stand where it says without a version, all others in their folder with the version; nothing else outside the source folder changes, and the result does not depend on the order of listing and of tasks.", "quantifier": "every product folder, index, version, later version, earlier state of the disk, order of listing and schedule of the tasks", "why_tests_cant": "the space of folders, indexes, versions and schedules is unbounded", "anchors": ["src/v8unpack/organizer_file_ce.py:OrganizerFileCE", "src/v8unpack/organizer_file.py:OrganizerFile", "src/v8unpack/organizer_code.py:OrganizerCode", "src/v8unpack/organizer_form_elem.py:OrganizerFormElem", "src/v8unpack/index.py:get_dest_path", "docs/usage.md"]}
{"id": "C80", "title": "Extraction, build and extraction again give the same sources", "statement": "The product file that a build makes of extracted sources is recognized as a product of the same class and version, and extracting it gives the sources of the first extraction - every file and every folder of nested objects, byte by byte - but for one entry of the description: the table versions of a configuration or configinfo of an extension, which every build makes anew.", "quantifier": "every product file that meets C67, version, platform, order of workers, listings and organizer tasks, random identifiers and digests", "why_tests_cant": "the space of products, schedules and random identifiers is unbounded", "anchors": ["src/v8unpack/v8unpack.py:extract", "src/v8unpack/v8unpack.py:build", "src/v8unpack/decoder.py:decode", "src/v8unpack/decoder.py:encode", "src/v8unpack/MetaObject/Configuration.py:Configuration", "src/v8unpack/MetaObject/ConfigurationExtension.py:ConfigurationExtension", "src/v8unpack/MetaObject/__init__.py:encode_versions", "src/v8unpack/container_writer.py:calc_sha1"]}
{"id": "C81", "title": "An edited module is built into the product and everything else is as before", "statement": "When the text of a module is edited in the extracted sources (own module of the product or module of an object at any depth; file saved as UTF-8 with or without byte order mark, any line ends), the build succeeds if the new text can be written in the encoding the module was kept in, and makes the product it makes of the unedited sources, file by file and byte by byte, but for this one module, which has the new text (commented out where the build version asks for it) in its old encoding. A module file added for a module that was absent or binary is ignored; a character the old encoding does not have makes the whole build fail.", "quantifier": "every extracted product, module, new text, platform, version, order of objects and schedule of the workers", "why_tests_cant": "the space of products, texts and schedules is unbounded", "anchors": ["src/v8unpack/MetaObject/__init__.py:encode_code", "src/v8unpack/MetaObject/__init__.py:write_encode_code", "src/v8unpack/MetaObject/__init__.py:write_raw_code", "src/v8unpack/helper.py:txt_write", "src/v8unpack/decoder.py:encode", "src/v8unpack/decoder.py:decode"]}
{"id": "C82", "title": "A folder of an object is added to the sources of a product or removed", "statement": "With auto_include, when the folder of an object that stands in the product is deleted from the extracted sources (not the last one), the build succeeds and writes the product without the files of this object and of everything nested in it; in the header the object is taken off the list of its type and the number there is one less; every other file is the same bytes (the table of versions names the files that are left). When a folder of an object of a type that has objects is added, the product gets its files, and the header lists it. Exceptions proved as such: without auto_include the header stays as it was; the first object of a type is not listed.", "quantifier": "every extracted product, position and type of the object, everything nested in it, platform, order of the workers", "why_tests_cant": "the space of products and folders is unbounded, and a test sees one order of the workers", "anchors": ["src/v8unpack/MetaObject/__init__.py:fill_header_includes", "src/v8unpack/MetaObject/__init__.py:fill_header_include", "src/v8unpack/MetaObject/__init__.py:encode_includes", "src/v8unpack/MetaObject/__init__.py:decode_include", "src/v8unpack/MetaObject/Configuration.py:encode"]}
{"id": "C83", "title": "An edit in the description of an object is built into the product", "statement": "Between extraction and build the JSON description of an object is edited. A new name goes into the file of this object, with the prefix of the build, at the place of the name, and every other file of the product is the same bytes; with auto_include the identifier of the object still stands once in the list of its type, at the place of the new name. A new value in the header data, at a place the build does not fill itself, is written to this place of the file of the object at any depth of nesting, and nothing else in the product changes. Exceptions proved as such: the comment and the synonyms in the description are not read by the build; the name of a borrowed or nested object does not reach its file.", "quantifier": "every extracted product, class and position of the object, depth, new name, place and value, auto_include, order of the workers", "why_tests_cant": "the space of products, places and values is unbounded; a test edits one description", "anchors": ["src/v8unpack/MetaDataObject/__init__.py:encode", "src/v8unpack/helper.py:encode_header", "src/v8unpack/MetaObject/__init__.py:fill_header_include"]}
{"id": "C84", "title": "A build does not depend on the order of the workers, the order of listing or the names of the folders of objects", "statement": "Two builds of one source tree write the same files: the order in which the workers deliver nested objects, the order in which the folders are listed and the names of the folders of objects (at any depth, the types are kept) do not matter, and one of the builds fails exactly if the other one does. Only the table of versions may list the names in another order and holds other random identifiers. The condition is that the objects nested at one place can be told apart: for each type distinct names and distinct identifiers. Without it the order in which the workers deliver decides: proved as such for two objects with the same name.", "quantifier": "every source tree, class, depth, renaming and order of the folders, order of delivery, order of the list of files, random identifiers", "why_tests_cant": "the orders of delivery and of listing depend on the scheduler and the file system: a test sees one of them", "anchors": ["src/v8unpack/decoder.py:encode", "src/v8unpack/helper.py:run_in_pool_encode_include", "src/v8unpack/MetaDataObject/__init__.py:encode", "src/v8unpack/MetaObject/__init__.py:encode_includes"]}
{"id": "C85", "title": "The order and the times of the files in a product file do not matter, and two builds give product files with the same content", "statement": "Two product files in which the same files were stored, in any order, with any times and by different machines, are taken apart into the same names with the same contents (the file with the digests of an extension aside), and without digests the sources extracted from them are the same, or the extraction fails for both. Two builds of one source tree (any order of the workers and of the listing, any names of the folders of objects, any times of the temporary files) give product files with the same names and contents, apart from the table of versions and the digests of an extension. The digests are excepted because they are computed over stored modules, which hold the times of temporary files: proved as such.", "quantifier": "every product, order of its files, times, machine, source tree, renaming, order of delivery and of listing, random identifiers", "why_tests_cant": "times and orders differ from run to run and from machine to machine: a test sees one of them", "anchors": ["src/v8unpack/container_writer.py:build", "src/v8unpack/container_reader.py:extract", "src/v8unpack/container_writer.py:calc_sha1", "src/v8unpack/decoder.py:encode"]}
{"id": "C86", "title": "Extracting a product of two containers, building it and extracting it again gives the same sources", "statement": "From a product of two containers the second one is decoded into the sources, the first one is kept in an archive among them, and a build puts the kept container in front of the one it makes from the sources. The file that is built can be extracted again and gives both containers.", "quantifier": "every product of two containers, content of both, order of listing, change of the sources, machine", "why_tests_cant": "a test sees one product and the order in which one file system lists the folders", "anchors": ["src/v8unpack/decoder.py:encode", "src/v8unpack/decoder.py:decode", "src/v8unpack/container_writer.py:build", "src/v8unpack/container_writer.py:compress_and_build"]}

# Formal model of v8unpack in Lean 4 - design

## Method
Each Python function that carries a property is transcribed as a small total Lean function
(`lean/Verif/<Area>.lean`), branch by branch; exceptions are values (`Except Err`, `Option`), mutation is
state passing, loops are structural recursion or have an explicit fuel argument whose sufficiency is proved.
Every definition cites the file and lines it models and says where it simplifies.
Property theorems live in `lean/Verif/Props/<Area>.lean`, apart from helper lemmas, with a concrete
non-vacuity `example` beside each. Where the code violates the property, the negation is proved
(suffix `_neg`, or a name that tells what is lost) and the provable part is a theorem with the suffix `_partial`.

Theorem names begin with the property they belong to (`C15_round_trip_partial`).

## Plan per property
| id | model (module) | how it is proved |
|----|-------|-------|
| C01,C02 | `Container`: byte-level writer and reader over `List UInt8`, parametrised by format (widths, markers, header sizes) | write-log invariant: every block header and payload written is at its offset of the final file; read-chain lemma; table-of-contents split lemma |
| C03 | same writer with `offset` | negation for every pair of folders; partial for reading two containers |
| C04 | `extract` loop with `detect_format` and computed size | computed size >= file length, lower bound by induction over files |
| C05 | `_read_gen` with an arbitrary chain | induction over the chain |
| C06 | writer history | prefix invariant over operations |
| C07 | int2hex / int(.,16) | positional numeral induction; overflow negation |
| C08,C09 | `Zlib`: streaming (de)compressor as a state machine, zlib itself a parameter; a concrete stored-block inflater as instance | prefix theorem, exact characterisation by "every portion yields output"; negation without |
| C10-C14 | `Brace`: line/character state machine of the parser; recursive serializer with the base64 guess | induction on trees; token lemmas; parity invariant for C14; witnesses for C11, C12, C14 |
| C15-C17 | `Code`: OrganizerCode unpack/pack over lines and a path-keyed file map; `CodeSpec` is the independent notion of a module with areas | induction over the area forest |
| C18-C21,C46,C47 | `Descent`: file-name resolution over listings; per-file version store | maximum lemmas; histories by induction; witnesses |
| C22-C24,C42 | `Index`, `Pack`, `Json`: JSON trees (ordered dictionaries) | structural induction; any-schedule theorem for queued copies |
| C25-C27,C48 | `Encode`, `Include`, `DecodeLoop`: pool as any permutation of completions; the object tree; rounds of the scheduler as a relation | permutation invariance; measure for termination of every run |
| C28,C29,C34,C37,C49,C50 | `Encoding`, `Module`: UTF-8/UTF-16/cp1251 decoding, text mode line ends, directive substitution, the code slot of a form | induction on text |
| C30,C45 | `Form`: managed form element tree | mutual induction on the element tree with a dictionary-framing invariant |
| C31,C53,C45 | `OForm`: ordinary forms, panels and pages | same, plus slice arithmetic |
| C32,C54 | `Areas`: OrganizerFormElem | "entries move from one dictionary to the other and back" relation |
| C33 | `Header`: header decoding and the prefix options | case analysis, exact characterisation |
| C35 | `ExtExc` | induction over the wraps |
| C36,C39-C41,C43,C44,C51 | `Misc` | decision logic |
| C52 | `Base64`, `Embed`: real base64 codec (lenient decoder of binascii), places of embedded data | induction on groups of three bytes |
| C57 | `Nested`: the lists of nested objects, both ways, on trees | induction over lists; look-up independent of delivery order |
| C58 | `JsonText`: json.dump/json.load text codec, UTF-8, text mode | mutual induction over values; fuel proved irrelevant (`value_enough`); prefixes |
| C59 | `Object`: the whole path of an object file: bytes → brace data → header and lists taken out → JSON files → back; `BraceCheck` is a sufficient test used only for examples | composition of C10, C33, C57, C58 with the path lemmas of `Product` |
| C60 | `Store`: all files of an object and of its folder of sources, with the table of the classes | induction over the parts of a class; C59, C49, C58 composed; collision freedom of the table decided |
| C61 | `Tree`: extraction and build of an object with everything nested in it, for any classes given as handlers (`Handler`), and for the classes and the type table of the tool | induction over the depth with the delivery order as a parameter (`tree_back`); every class shows that one object comes back if its nested objects deliver what stood in the lists (`Comes`); the identifier a form refers to its owner by is passed down and is the same in both directions (`con_at`, `con_back`) |
| C62 | `Root`: a whole product: detection of the class, header, description JSON, modules, help page, splash screen, other files, lists of several groups, `versions`, nested objects through `Tree` | the description is read back entry by entry (`description_read`); the lists of the groups are taken apart and filled one after the other, which commutes because their places are apart (`takeLists_comm`, `putLists_takeLists`); the nested objects come back by C61 (`kids_back`) |
| C63 | `Leaf`: pictures, templates, web service references with their data file; `Tree.kindAt`: the two layouts of an accounting register; the classes take part in the trees of C61 | the entries of the description and the files are pairwise distinct (`keysOf_nodup`, `sources_nodup`), so each is found again; C52, C12, C58 for the data; the frame lemma of `Product` for the version that selects the class |
| C64 | `FormObj`: a form with its files both ways (`FormCore.py`), `FormJson`: the file of the elements as JSON; elements themselves are `Form`, `OForm` and (auto_include) `OFormAuto` | the entries of the description and the files are pairwise distinct, so each is found again (`form_sources`); the code and the elements touch different values of the form (`decodeForm_set`, `encodeForm_set`), so that C29 and C30 compose; the data of the elements are sorted before they are written, and looking up is insensitive to it (`encodeForm_sorted`) |
| C65 | `Stage`: from the product file to the folder of its files (unwrap) and back (wrap), made of Container, Zlib and the table of digests; zlib, times and SHA-1 are parameters | C01 for the outer container and the containers of the module folders, C08/C09 for the stored files (`decompress_compress`, `looks_iff`), folders compared as maps from names (`view`), whatever the order of the listing |
| C66 | `Org`: the organizer for a whole folder (files of the computer as a map, copies, module tasks, form tasks in any order) and back; made of Code (C15) and Areas (C32) | `laid` says what every file holds after extraction, whatever the order of the writes (equal content for equal places); `pack_one` builds each file from it |
| C67 | `Props/Whole`: `Stage` (containers) and `Root` (decoder) put together | `OnDisk` links the files that build writes with a folder listed in any order; `folder_ok` carries the conditions of C65 over C62; example: the product of RootEx stored by a part of DEFLATE |
| C68 | `Pipe` (a folder of sources as a tree and as files by path; the elements of a form as JSON and as the organizer sees them), `Props/Pipe*` | `Neat`: what extraction makes has a file in each folder; `Holds`, `Shows`: what the build finds stands for what was extracted (`Like … Stands`); C61/C62/C67 hold for whatever stands for the sources; example: a configuration whose module has an include area |
| C69 | `OFormAuto` (Panel.py with auto_include: pages in the tree, numbering, anchors by name), specification `OFormRenum` | the round trip equals `renumForm`: panel by panel in lock step (`lockstep`, `panel_core`), induction on the nesting (`elem_rt`); names of references and numbers of references are inverse (`ref_back`) |
| C70 | as C69 | `renumForm` is idempotent (`panel_fix`, `elem_fix`: numbers, order of pages and references are already those of the second numbering), the renumbered form is taken apart into the same tree and paths (`panel_again`, `elem_again`) and meets the conditions of C69 again |
| C71 | `Crash`: the writers of `Container` once more on a file object that records its write calls (`C71_record` proves that they are the same writers); a stop state is any prefix of the record with the last call cut at any byte (`Stopped`) | the record is three runs of consecutive writes (header and documents; the first block of the table in place; further blocks), `buildL_log`; each cut of each run is read by the model of `extract` (`State`, `state_of_stopped`): an unfinished block header is no hexadecimal number, unwritten words of a table are zeros and no end marker (`bsplit_cut`), a chain that stops early is an error (`tail_cut`) |
| C72 | `PathText`: `os.path.join` on text as posixpath does it, the three places where extraction builds a path from a name of the product; the specification is `place`, the list of names a POSIX path leads to (`step`: `.`, empty and `..`) | `place (join a b)` = following `b` from `place a` (`place_join`); single names append (`place_plain`); entries of one container have different names because `read_files` keeps a dictionary; the negative statements use the build of C01 to make the product |
| C73 | `Top`: `extract` and `build` of v8unpack.py as programs on a file system (places to contents); the stages are parameters | frame conditions (`Writes`) compose (`writes_then`), so do read conditions (`same_then`); the specification is `Writes`, `Reads`, `Same`, `Under` |
| C74 | `OrgIndex`: the organizer of C66 with an index: `home` is get_dest_path and abspath, `indexJobs` the walk of `Pack.packIndex`, `Packed` the build with its tasks in any order | `target` (specification: the file the entry names, else the own path) equals `home` (`home_eq`) and `entryFile` (`entryFile_eq`); the walk collects exactly the entries (`packIndex_tidy`, `mem_entries`); then one job per file of the product (`jobs`), each giving the file back (`run_one`) |
| C75 | `Versions`: the organizer of C66 with a version: `Saves` is a history of states, each task decides on any state since its pool was started and writes to the present one; `pack` with the names of `removeDescent` and two searches for a module | every state of the run shows only names of the product with the version or without (`saves_puts`), so each search finds nothing or the file itself (`save_name`); on the way back `near_spec` gives the only version (`near_stored`, `near_again`) |
| C76 | no new model: `Pipe` of C68 with `Versions` (C75) or `OrgIndex` (C74) between extraction and build | `C68_any_layout`: the proof of C68 uses of the organizer only that the packed folder is the extracted one; C75_folder_back and C74_folder_back say so |
| C77 | no new model: `OrgIndex` already has `*` (getDestPath, packIndex, listing of the current folder) | `packIndex_star`: what the walk through an index with `*` collects, by induction on the index; then the proof of C74 with another placement (`Placed`, `Laid`, `back_at`) |
| C78 | `Cli`: main from the parsed arguments on, the batch functions as steps of `Top` | unfolding, the batch by induction on the list of products; the negative theorems by the theorems of C73 |
| C79 | `VersIndex`: OrganizerFileCE.unpack/pack with an index, on `Versions` and `OrgIndex` | the files after extraction = those of `OrgIndex` renamed by the version (C75's renaming lemma), then the build file by file |
| C80 | `Root`, `Tree`, `Store`, `Leaf` again, on the container a build made | extraction looks only at the files of the product and of what is nested in it (locality lemmas for each class), these are the same (C62/C67/C68), the new tables are well-formed brace files |
| C81 | `Root`, `Tree`, `Store`, `Module` on two sources that differ in one `.bsl` file | the build looks at the file of a module only for this module (locality of every class), by induction along the path to the object; the encoding comes from the description extraction wrote |
| C82 | `Root`, `Tree`, `Nested` on two sources of which one has a folder more | sorted insertion splits one list; the other lists of the header are the same for both (frame, by induction over the lists); extraction leaves the name of the type in one place (lists_ready) |
| C83 | `Header`, `Object`, `Store`, `Tree`, `Root` on two sources of which one has another description | the build of an object as assignments to places of its data (build_steps); assignments to places apart commute; the change passes through the folders by induction over the depth; with auto_include by C82 twice |
| C84 | `Nested`, `Store`, `Tree`, `Root` on two sources, orders and random streams | lists filled from permuted deliveries are equal when names and identifiers are distinct; induction over the relation Renamed, with a lift of the permutation for its symmetry |
| C85 | `Container`, `Stage`, `Order`, `Whole` | a product file determines its files up to order and times (C84 for the build, C62 for the container); the extraction looks files up by name |
| C86 | `Dummy` on `Stage` and `Misc` | reading: C03_extract_two_partial; the built file: C03_two_containers_unreadable; the archive `dummy.zip` is taken as the folder it was made of |
| C55,C56 | `Product`: version, comment marks, compatibility mode, prefix | get/set lemmas for nested lists |
| C57.. | see the modules `Store`, ... and the properties file | added as the model grows |

## Findings (where the code does not do what a user relies on)
All of these are theorems about the model; the reading of the code at that point was repeated for each.
* Containers: a file over 4 GiB is stored with truncated sizes instead of being refused (C01, C07); the second of two
  containers of one file cannot be read back (C03); names that begin with a byte order mark lose it (C01).
* A compressed file with 8192 bytes of input that yield no output is cut off silently (C08).
* Brace files: long ASCII literals that look like base64 get line breaks (C11); `#base64` under 72 characters comes back with
  another mark (C12); unclosed braces are accepted (C14); an empty list becomes another value (C10).
* Module areas: a repeated area name loses text (C16), nested single-name areas cannot be built (C15), unclosed areas and one
  extra closing are accepted (C17).
* Versions: siblings that extend the stem are mistaken for versions (C18); extraction with a version erases the other
  versions (C46); names that end in a number part lose it (C21).
* Index: race between the indexed module and the one in the folder, wildcard folders that are not found are dropped (C24).
* Objects: unrecorded objects are dropped silently (C27); an object whose nested folders hold nothing readable stops the build (C26).
* Code: CR LF on Unix, binary modules readable as windows-1251, protected modules (C49, C50), bare directives in stored code (C28),
  raw value in the code slot (C29), names with quotes (C34).
* Forms: equal paths lose elements (C30, C53), entries after pages (C31), areas used twice (C32), pages of an `includr_` panel (C54),
  an ordinary form that could not be split can never be built (C45).
* Prefix: nested and borrowed objects lose it, other first-level objects gain it (C33).
* Embedded data: empty pages, pictures without data and one-line templates are changed or lost (C52).
* Lists of nested objects: inner objects of a product are lost without auto_include, type names are left in the lists when a product extracted with it is built without (C57).
* A build of at most 42 files that is stopped just before the last entry of the table of contents leaves a file from which everything but the last (short) file is extracted without an error (C71).
* Names in a product are used as paths unchecked: an entry, object or area whose name contains `/` or is absolute makes extraction write outside its folders, with content of the product's choice (C72).
* `extract` empties the folder of sources before it opens the product: a wrong file name, or a product that lies inside that folder, destroys the sources; `temp_dir` is emptied, too, whatever it holds; an index file `{}` makes both commands succeed without doing anything (C73).
* With a version: of two files `base.e` and `basex.e` in one folder, extraction fails when the longer name is listed first (it opens `base.<version>.e`, which is not there). Sources without versions that hold `Configuration.802.bsl` (a module every configuration may have) lose it when built with a version: it is taken for version 802 of `Configuration.bsl`. Files of form elements never get a version. Areas named by one word, which without a version are beside the module, are two folders above the sources with a version (C75).
* With a version, a file without an extension is stored under `<version>.<name>` and never found again: the splash screen of a configuration (`Заставка`) is lost from the product (C75_no_extension_neg).
* `Configuration.json` (entry `versions`) and, for extensions, `ConfigurationExtension.json` (entry `configinfo`) are other files after every build although nothing was changed: the tables have new random identifiers (C80_same_table, C80_new_ids_neg).
* With a version, an index entry for a file in a folder whose path begins with the text of that of the sources (`/p/src_common` for `/p/src`) is saved with the version in its name, and the build takes the file without it: an old content, or it fails (C79_inside_neg).
* The digests in the configinfo of an extension are computed over stored module containers, which hold the modification times of temporary files: two builds of the same sources differ in configinfo (C85_times_stored_neg).
* A product of two containers (new formats) is extracted and built without an error, but the file that is built is unreadable (C86_no_round_trip_neg); with the second container listed first its content is not in the sources at all (C86_listing_neg).
* Objects of one type with the same name at one place (their folders have different names): the order of their identifiers in the list of the type is the order in which the worker processes delivered them (C84_same_name_neg).
* The comment and the synonyms in the description of an object are not read by the build: an edit there changes nothing; the name of a nested or borrowed object in its description does not reach its file (C83_comment_neg, C83_name).
* With auto_include, a folder of the first object of a type that is put into the sources of a product is built, but no list of the header names it; without auto_include a folder put in is never listed, and a deleted one stays listed (C82_first_of_type_neg, C82_without_auto_neg).
* A `.bsl` file added to sources for a module the product did not have, or beside a protected module, is ignored without a message; a character that windows-1251 lacks, in a module that was stored in it, makes the whole build fail (C81_added_module_ignored_neg, C81_binary_module_ignored_neg, C81_unencodable_neg).
* `--descent 0` (the base version) is dropped by main (`if value:`), so the extraction runs without a version and clears the sources first (C78_descent_zero_neg). `--processes` is parsed and never used; -EA/-BA ignore all options but `--index` (C78_ignored_neg).
* `*` entries are listed from the current folder (`os.listdir(all_path)`), everything else is looked up from the source folder: run elsewhere, the build leaves all files of the `*` folders out of the product and reports nothing (C77_elsewhere_neg).
* `"name": null` beside `*` (usage.md:330-340) is an exception for extraction but not for the build: `_pack_index` passes over empty entries before it notes them in `completed_entry`, so a file of that name in the shared folder goes into the product (C77_exception_neg).
* Keys `*-a-b` exclude names on build; extraction looks up only `*` and moves nothing (C77_excluding_neg).
* An index entry for a file that the product no longer has: extraction leaves the old file where it is, the next build puts it into the product again (or fails if it is gone). A module moved by the index whose area has a one-word name: the area is written into the folder of sources and looked for beside the moved file (C74).
* An ordinary form that cannot be taken apart is left as it is by extraction; with auto_include a build then sets the number of its elements to 0 and empties the list of its links, silently; without it the build fails (C64, C69).
* Batch mode: the product name piles up in the version with every round (C55); extraction ignores the compatibility option (C56).
* The chosen container depends on the listing order of the file system (C51); the digest file keeps the tail of an old one (C43).

## Trusted base
* Lean 4.33.0 kernel; axioms: at most `propext`, `Classical.choice`, `Quot.sound` (checked by `vcheck` for every theorem).
* The reading of the Python code (each definition cites file and lines), and the reading of the Python library functions
  the code uses (`struct`, `open` in text mode, `str.split`, `sorted`, `int`, `str.isspace`, `binascii.a2b_base64`, `re` patterns used).
* Parameters of the model, about which theorems assume only what they state: zlib (a machine fed byte by byte), SHA-1,
  the Unicode test `str.isalnum`, the validity of a uuid text, the table MetaDataTypes, the windows-1251 table (`cd`),
  the outcomes of system calls (C40), the order in which workers finish (every permutation), the order of `os.listdir`
  (every permutation where it matters), the place of area files (`inc`, `names` in `Areas`),
  the text of a small embedded brace file (`parse`/`ser` in `Embed`, instantiated by the brace codec).

## Modelled
container.py, container_doc.py, container_reader.py (extract, decompress), container_writer.py (build, calc_sha1),
json_container_decoder.py, organizer_code.py, organizer_file.py and organizer_file_ce.py (paths, index, versions, packing),
organizer_form_elem.py, index.py, helper.py (names, strings, headers, versions, pools, retries, encodings, index merge),
v8unpack.py (extract, build, batch mode), decoder.py (rounds of decoding and encoding, handler choice), MetaObject/__init__.py (includes, modules, embedded data, product info),
MetaObject/Configuration, ConfigurationExtension, ExternalDataProcessor (version, comment, mode, prefix),
MetaDataObject/** (all classes; Form/** with FormCore, FormElements4, FormElements26/27), Template, CommonPicture, ext_exception.py,
v8unpack.py (batch mode).

## Not modelled
zlib and SHA-1 themselves; the operating system beyond a map from paths to bytes (permissions, path length, case folding);
process crashes of workers; time zones; Form5.py and Form9.py contain
only commented-out code (empty subclasses of FormCore); progress output; command-line parsing.

# Design of the formal model of `artifact`

Source: `/repo` (vitiral/artifact, Rust), read as text. Model: Lean 4 in `lean/Verif`.
Properties: `properties.jsonl`. Status per property: `MANIFEST.json`. Mutation log: `seeded/LOG.jsonl`.

## 1. Trusted base

* Lean 4.33 kernel, and the standard axioms `propext`, `Classical.choice`, `Quot.sound` (a
  theorem uses a subset of these; `#print axioms` on every theorem of `MANIFEST.json` shows no other). No axioms of our own, no `sorry`,
  no `native_decide`, no `bv_decide`, no `implemented_by`.
* The transcription from Rust to Lean. Each definition cites file and lines. Nothing is
  extracted automatically, so a transcription mistake is possible; mutation testing
  (`seeded/LOG.jsonl`) checks that the theorems notice realistic deviations.
* Contracts of libraries whose source is not in `/repo` (section 3).

## 2. Layout and conventions

* `Str = List Char`: a Rust `&str` is a list of Unicode scalar values. Byte-level slicing is modelled
  where the code slices bytes (`&key[0..3]`).
* `Res ε α = ok | err | panic`: a Rust `Result` with panics (`unwrap`, `expect`, `unreachable!`, slice
  out of range, explicit `panic!`) as a third, explicit outcome. Totality in Lean never hides a panic.
* `IndexMap`/`IndexSet`: association lists in insertion order. Lookup uses the key type's `Eq`
  (case-insensitive for names). `insert` keeps the first key and position and replaces the value,
  `remove` is swap-remove: as in indexmap 1.0.2.
* Regular expressions: an AST with the leftmost-first (Perl-like, ordered) semantics as a list of all matches in priority order,
  proved equivalent on the "is there a match" level to a declarative language semantics.
* Threads: the code uses threads as unordered producers into channels followed by a join,
  so a schedule is a permutation of the delivered items. For the file system
  operations a schedule is an interleaving of steps within a phase. `Model/Chan.lean` models the threads and the bounded channels themselves;
  C65 and C66 derive both from it, and say when threads die or block.
* Model files: `Verif/Model/*.lean`. Specifications: `Verif/Spec/*.lean`, or at the head of the property file. Property theorems: `Verif/Props/*.lean`, one file per area;
  helper lemmas: `Verif/Lemmas/*.lean`. Every property theorem has examples that meet its hypotheses: in its own file, or in `Verif/Cases/*.lean`,
  which apply the theorems by name to concrete names, texts, disks, projects, requests and pages.

## 3. Library contracts (assumed, not proved)

| Library | Contract used |
|---|---|
| regex 1.1 | leftmost-first semantics; the empty alternative at the beginning of `REPLACE_TEXT_RE` is passed over; `(?i)` is Unicode simple case folding, so `[A-Z]` also matches U+017F and U+212A; `\s` is Unicode White_Space. The texts of the expressions, a parser for them and the matcher are in `Model/Pattern.lean` (C69); trees are used elsewhere |
| indexmap 1.0.2 | as in section 2 |
| petgraph 0.4.13 `toposort` | returns an order with every edge forward, containing each node once; fails iff there is a cycle (self loops included). Given as a predicate; a concrete algorithm meeting it is also provided |
| serde_yaml/toml/json | parameters with a round trip contract; an instance is constructed to show the contract is satisfiable. JSON is also modelled as it is (C62, C63), and so are the parts of YAML and TOML in which attributes, artifact files and settings are written (C67, C68) |
| crossbeam-channel 0.3.8 | modelled concretely: bounded queues, `send` fails when all receivers are gone, a receiver ends when the queue is empty and all senders are gone |
| SipHash | arbitrary function of the byte stream |
| base64 0.9 | modelled concretely (URL-safe alphabet, no padding) |
| walkdir, path_abs, std::fs | modelled as a tree / a map from path to content; I/O errors and crashes as nondeterministic steps |
| f64, f32 | C15–C19, C48 and everything that builds on them use exact rationals, with the rounding to thousandths of `round_ratio`. `Model/Float.lean` models the same functions with IEEE 754 rounding after every operation; C58 relates the two. Infinities, NaN, signed zero and overflow are left out (all numbers are between 0 and the number of slots). Assumed: Rust's `+ / *`, `as f32` and decimal printing are correctly rounded |

## 4. Not modelled

Terminal rendering (ergo_std tables, colours codes), HTTP connections and headers that the libraries add (routes, bodies and the headers of the program are modelled, C76, the JSON texts in C63), the HTML virtual DOM, plantuml/dot rendering,
`mdbook`, performance.

## 5. Plan per property

| Id | What is modelled | How it is proved |
|---|---|---|
| C01 | `InternalName::from_str`, the name regex | characterise regex language by induction; witness `ſPC-x` for the panic; partial: ASCII strings never panic |
| C02 | `Eq/Ord/Hash`, `Display`, serde of `Name` | order lemmas on lexicographic lists |
| C03 | `SubName::from_str`, `full()` | injectivity because names contain no dot |
| C04 | `parent`, `auto_partof` | measure (type rank, number of elements) decreases |
| C05 | `auto_partofs`, `strip_auto_partofs`, `From<Artifact>`, `hash_im` | set extensionality over keys |
| C06 | `expand_names`, `parse_collapsed` | grammar of collapsed expressions with denotation; induction over the grammar; error characterisation |
| C07 | `clean_text`, `TextRaw` serde | induction on lists |
| C08 | `parse_subnames` | scanner equals declarative set of occurrences |
| C09 | `parse_locations` | refinement to a specification over the token stream |
| C10 | `join_locations` | induction over the list with invariant |
| C11 | `join_artifacts_raw` | same |
| C12 | `create_ids`, `determine_graphs`, `determine_parts` | id map bijective, edges correspond |
| C13, C14, C40, C41, C44 | the lints | membership characterisations; path induction for C14 |
| C15–C19, C48 | `to_statistics`, `determine_completed`, `round_ratio` | induction along a topological order; uniqueness by well-founded induction; two-run induction for C17/C48; rational arithmetic |
| C20 | `load_settings`, `read_project`, `Project::sort`; a schedule is any order of arrival | permutation invariance of every stage, sort canonicalises; equality up to spelling in general, full equality for consistent spelling |
| C21, C22, C42 | `from_markdown`, `to_markdown`, `lint_artifact_text` | line-mode state machine; induction over artifacts |
| C23–C26 | `modify_project` and callees | operational semantics in a state/error monad; invariants over op list |
| C27, C49 | backup/save/remove phases as step system (`Model/Save.lean`): one list of disk actions per file, interleaved freely, each of which may fail; text is written character by character; renames are atomic; the walk of a phase sees the disk at its beginning (C64 removes this) | inductive invariant over all reachable states (`Lemmas/SaveInv.lean`), then `modify_project` as a whole (`Props/Save.lean`); concrete disks and the losses without the conditions in `Props/SaveEx.lean` |
| C28, C29 | `check_paths`, walk | tree induction; concrete witness for the negation |
| C51 | `resolve_raw_paths` | induction over components |
| C30 | byte stream of `Hash for ArtifactIm`; SipHash is a parameter `sip` | `C30_stream_iff`: the bytes agree exactly when the content agrees up to the case of `partof`, or one is the other with a confused end of `partof` (`Confusable`, finding 17). `C30_identifies(_done)`: without that shape, or with equal `done` presence, the bytes identify the content. `C30_no_collision` discharges the `NoCollision` hypothesis of C23/C25 |
| C31 | base64 encode/decode (URL safe, strict as in base64 0.9) | `C31_roundtrip` for all 16 byte ids, `C31_text` the spelling, `C31_accepts` exactly which texts are accepted, refused or panic (finding 18) |
| C32, C33 | lints, `check` | sorting lemmas, decision logic |
| C34, C35 | `filter_artifacts`, `Flags`, order and columns of the list; the regex engine is a parameter (filled in by C69) | specification of the words of a selection by position between commas; `C34_exact` for every project that was read |
| C36, C52 | `Runs`: threads, the mutex and its poisoning, kills and interrupts; requests by `Handles`, which uses `ReadsProject` and `Modifies` | invariant `Good` over all histories gives a linearisation (`C36_linearizable`); disk by C27 and C46 |
| C37 | `update_model` and its callees as one function `UI.update`; histories (`Runs`) interleave messages of the page, clicks, batches, and requests and responses on their way; panics stop the page | invariants `Good` and `Flight` over all histories: at most one request, ids never reused, each response answers a request that is in the history |
| C38, C39, C50 | points and colours of terminal, markdown and web page, `trim_base`, enums | case analysis; `C38_printed` connects colour and printed number through `round_ratio` |
| C43 | raw conversion | direct |
| C45 | `find_repo` | induction over the components of the path; specification by `Under` |
| C46 | `read_project` after `modify_project` (`fmt` is the empty batch): the whole disk after a successful run is walked, parsed and joined again | composition of C20, C21, C25, C27 and C29: after the run each file holds exactly the rendered text, every file is reached as often as before, and the joined artifacts are a permutation of the planned ones. Hypotheses: `Safe`, `Apart` (settings and code are not artifact files), `ReadOnce`, `Survives` (the text formats restore what was written) |
| C47 | `View::from_hash`: the two regular expressions, `usize::from_str`, the digit class as a parameter | `C47_route` gives the view of every hash by a specification of the first name and the first edit in it; `C47_panic_iff` |
| C53 | the server of C36 and any number of pages of C37 in one step system (`Model/Whole.lean`), with the texts that are sent between them; requests and answers may be lost | histories of the whole project to histories of the server and of each page (`C53_server`, `C53_page`), so their theorems apply; an invariant links each thread to the request it works on; `Neat` (keys, ids and links of a served project) makes reading the answer succeed. `C53_can_save` shows that the situation of the theorems is reachable for every possible change of a text |
| C54 | `artifact_part_dot`, `graph_html_results` and what they call, with the exact text (`Model/Dot.lean`); the hash tables give any permutation | `Spec/Dot.lean` reads a graph back from its text, row by row; each piece of text says the same whatever follows it (`Chunk`), so the items of the whole are a concatenation; membership by C12 (parts are the converse of partof) |
| C55 | `replace_markdown` with the three kinds of matches, `name_markdown`, addresses of code, `to_markdown`, `export_markdown`, `run` of `art export md`, with the exact text (`Model/Export.lean`); `strfmt` and the format of a percentage are parameters | `Spec/Export.lean` says by an inductive relation how a text is cut into pieces and what is to be shown for each, reading links back from their text; the regular expression is proved to find exactly these pieces (longest opening and shortest body of a graph by induction over the matches in order of priority); the document is composed from parts that either show what they should or crash for a stated reason (`Makes`) |
| C56 | `run` of `art init` as a list of actions on the disk (`Model/Init.lean`), a kill between any two; the text of the two files that are written is exact, how the settings are parsed is a hypothesis (`newSettings`) | each action changes only the four paths and keeps the tree; the whole run by cases on what is at `design` and `design/purpose.md`; the new project is read with the theorems about walking (C29), paths (C51) and finding (C45), the rest is computed for an arbitrary place |
| C57 | nothing new: `modify_project` without operations (`Modifies … []`) after any `modify_project`, and `Checks` before and after | C46 gives the same artifacts when they are read again, so the files of the two runs are the same (`projectFiles_perm`: a text depends only on the set of artifacts of its file); the frame of C49 leaves everything else; the status by `lints_levels` from C33 |
| C58 | `to_statistics`, `determine_completed`, `round_ratio`, the points and the printed numbers with every operation rounded (`Model/Float.lean`); `f64` and `f32` are defined by a function and specified by IEEE 754 (nearest, ties to even: `Spec.Rounded`) | `C58_ieee`, `C58_unique`: function and specification agree; two-run induction of the rounded and the exact computation along the topological order with an error that grows by (slots + 1)·2^-53 per artifact (`determineArtifactsF_near`); the 1001 possible numbers by the kernel (`grid`: a complete case distinction, not a sample); order dependence by a witness (`C58_order_matters`) |
| C59 | the view functions of the frontend as lists of elements with what they do (`Model/Page.lean`); texts, graphs and colours come from an arbitrary painter that may fail; a click is a step only if its element is in the last picture; yew draws exactly when `update` says so | invariant over all histories: the screen is the picture of a state that agrees with the present one up to the newest messages (`C59_picture`, `C59_exact`); each step is a history of C37 (`C59_refines`), so C37 holds for what can really be clicked; `C59_links`, `C59_fields`, `C59_buttons` give the screen exactly, `C59_follow`, `C59_typed`, `C59_open`, `C59_close` what its controls do, `C59_survives` which of them panic, `C59_reachable` that everything can be reached. The nesting of elements, CSS, the browser's history and icons are not modelled |
| C60 | the painter of C59 as the code has it (`Model/Paint.lean`): the replacements of C55, the second search for graphs in their result, markdown, and reading the HTML; graphviz, markdown and the HTML reader are parameters, hash maps give any order | `C60_controls` holds for every painter; `C60_text`, `C60_stored`, `C60_part`, `C60_graph`, `C60_page` say for a read project what cannot be drawn, from C54 and C55; `C60_drawn` shows that the second search finds exactly the graphs of the first although the text between has changed: a fence that was not there before cannot appear and none disappears (`go_text`, by induction over the pieces), for texts without a line "```[[NAME]]" in a graph and places without line breaks. The colours of the numbers are not modelled (they are given as an attribute that has no effect) |
| C61 | what `art ls` prints (`Model/Listing.lean`): the pieces of text with their styles, cell by cell and line by line; `termstyle` is trusted to print them and to lay out the table | `Spec/Listing.lean` says what each cell and each line contains, with numbers as spelled decimals. `C61_table`, `C61_long`: the output is such a table or such lines, for the artifacts of C34. `C61_total`: it prints exactly when the selection is accepted, and never panics. `C61_plain`: the same text without styles. `C61_one_line`: rows stay on their line; `C61_torn`: unless a declaration has a line end. `C61_text`: short texts are told apart. `C61_long_ignores`, `C61_done_red`, `C61_ambiguous`: see finding 35. `exDoc_table`, `exDoc_long`: the whole output for a project |
| C62 | the reader and the writers of JSON texts of serde_json, and what serde makes of an artifact (`Model/Json.lean`); `Libs.withJson` puts them in the place of the JSON parameter of the model | `Spec/Json.lean` is the grammar of RFC 8259 as inductive relations, written without the reader. `C62_reads`: the reader accepts exactly the grammar up to depth 127 (soundness and completeness by mutual induction). `C62_unambiguous`, `C62_written`, `C62_back`, `C62_injective`: the writers are right inverses. `C62_file`, `C62_file_unique`: the artifacts of a file. `C62_survives`: the hypothesis of C46 holds for every JSON file; `C62_reload`, `C62_fmt` follow for whole projects. `C62_unknown_lost`: see finding 36. Numbers are kept as their text: no artifact has a number in it |
| C63 | the derived `Serialize`/`Deserialize` of all types that are sent, `json::Value`, the bodies of calls and answers, `handle_rpc` and `handle_response` from text to message, `Project::to_ser`, `initial.json`, `art ls --type json`, `Display for Categorized` (`Model/Wire.lean`) | decoders are shown to undo encoders for every value that is equal up to the order of members (`Alike`, one induction per type); texts by C62. That the projects of a server are sound (no key twice, subnames are subnames, lines fit into a `u64`, ratios are thousandths) is an invariant of the server (`served_fits`). `C63_request`, `C63_injective`, `C63_answer`, `C63_becomes` (refines `Whole.Becomes`, which C53 uses), `C63_toSer`, `C63_static`, `C63_text_injective`, `C63_ls`, `C63_lints`; `C63_lints_unseen` and `C63_toc`: findings 37 and 38. Assumed: files shorter than 2^64 characters, ids below 2^63 (`C63_id_limit`: needed), the decimal text of a thousandth is read back |
| C64 | `create_backups` and `remove_backups` with the walk as a thread of its own (`Model/Live.lean`): open directories with what was there when they were opened, what was shown and which names were fetched ahead; entries that appear or vanish may be shown or not, and may be shown after they have vanished | forward simulation into the step system of C27 (`Lemmas/LiveSim.lean`). The invariant (`Walking`, `Front` in `Lemmas/Live.lean`): what was sent and what lies below the entries still to be shown make up exactly the files a walk of the first disk finds, and the entries still to be shown do not contain each other. `C64_sound`, `C64_complete` (for all paths), `C64_modify` (equality of all results), `C64_safe`; `C64_overlap_doomed`, `C64_overlap_depends_on_timing`: finding 39. Assumed of a listing: an entry that is there all the time is shown exactly once |
| C65 | the threads and channels of `read_project` (`Model/Chan.lean`): bounded queues, the ends of channels that each thread has and when it gives them back, sending into a channel without a receiver panics, a worker that meets a bad file dies | for any network of threads: a weight that falls with each step (`ends`), no deadlock if values only travel upwards (`progress`), what is sent is what is received or queued (`Lemmas/Chan.lean`), workers that share a receiver handle exactly the values up to the n-th deadly one (`Pool.over` in `Lemmas/ChanPool.lean`). `C65_ends`, `C65_never_stuck`, `C65_finishes`, `C65_received`, `C65_same`; `C65_arrives` and `C65_reads` connect it with the model of reading used elsewhere; `C65_lost`: finding 40 |
| C66 | the threads and channels of `create_backups`, `remove_backups` and `save_project` (`Model/Chan.lean`); what handling a file gives is a parameter, the length of the queues too | the same, and for writing the invariant that, before the main thread receives, the failures of the files taken are in the queue or in the hands of workers (`save_failures`, `save_upTo`). `C66_backup_*`; `C66_save_ends`, `C66_save_never_stuck`, `C66_save_stuck`, `C66_save_returns_iff`, `C66_save_all`; `C66_save_safe`, `C66_full_disk_blocks`, `C66_save_returns_false`: finding 41 |
| C67 | `Model/Yaml.lean`: the writer of yaml-rust 0.4.2 for texts (`need_quotes`, `escape_str`) from memory of the library, with any function for what is a number; a reader for the part of YAML in which attributes are written. `Spec/Yaml.lean`: that part of the grammar of YAML 1.2 | the reader accepts exactly the grammar (`C67_reads`), so it is unambiguous (`C67_unambiguous`); `C67_scalar`: what is written is YAML for the text exactly when quoted or printable; `C67_yamlOk`, `C67_yamlOk_iff`, `C67_doneOk`: the contract of C21 from a condition on `done`; `C67_markdown`, `C67_survives`, `C67_reload`, `C67_fmt`; `C67_lost`, `C67_fmt_lost`: finding 42. The theorems ask of the library only that it reads texts of the grammar as they say (`YamlLib`); what it does with other texts is left open |
| C68 | `Model/Toml.lean`: the writer of toml 0.4.10 for artifacts (from memory of the library: which characters are escaped), a reader for the part of TOML in which artifact files and settings are written. `Spec/Toml.lean`: that part of the grammar of TOML 0.4, line by line. Not in it: carriage returns, numbers, booleans, dates, texts over several lines, inline tables, arrays of tables, `[parse]` without `md_name`, U+007F (the standards differ); a library that reads more meets the hypotheses too | the reader accepts exactly the grammar (`C68_reads`, `C68_settings`), so it is unambiguous (`C68_unambiguous`, `C68_settings_unambiguous`); `C68_string`, `C68_written`, `C68_unreadable`, `C68_survives`, `C68_survives_iff`: which texts come back, and that otherwise the whole file is unreadable; `C68_reload`, `C68_fmt`: projects with files of all three formats, with conditions only on texts; `C68_fmt_lost`: a project that is read without error and cannot be read after `art fmt`; `C68_init`: C56 without a condition on the one text; `C68_init_part`, `C68_init_killed`: a killed `art init` never leaves other settings |
| C69 | `Model/Pattern.lean`: the texts of all regular expressions of /repo as they stand there (with `format!`), a parser for such texts (regex-syntax 0.6.5 from memory, the part that is used; all else is refused), a matcher with anchors, `is_match`, `captures`, `captures_iter`, `replace_all` and `regex::escape`. The table of characters (case, digits, letters) is a parameter; `Spec.CharsOk` says what is asked of it. `Spec/Pattern.lean`: which texts an expression stands for, declaratively. The parser has no specification of its own beyond what is proved about it here | one theorem for each text: `C69_name`, `C69_sub_name`, `C69_tst`, `C69_text_subs`, `C69_text_refs`, `C69_source`, `C69_urls`, `C69_lines`, `C69_name_line` (induction over the prefix), `C69_replace` (induction over the text), by rewriting the tree that the parser gives (associativity, groups renumbered) and comparing with the tree of the model; `C69_is_match`: soundness and completeness of the matcher; `C69_ls_case`: invariant of the parser; `C69_ls_escaped`, `C69_ls_word`, `C69_ls_shows`, `C69_ls_group`, `C69_page_word`, `C69_page_empty`, `C69_page_search` |
| C70 | `Model/Cli.lean`: the declarations of the sub-commands as tables, and how clap 2.32 with structopt 0.2.14 reads words with them (from memory: long and short options, `=`, grouped letters, `--`, repeated options, numbers, missing arguments, help and version). An option whose value is missing is left open (`dangling`): the model says nothing about it. `Spec/Cli.lean`: parts, how they are written, which fit, what they ask for; it uses the tables but no function that reads words | `C70_command`: soundness and completeness of the reader by induction over the words, with the loop's state as invariant; `C70_refused`, `C70_order` (permutation), `C70_known`, `C70_help`, `C70_verbose`, `C70_repeated`, `C70_counted` (all numbers of letters) |
| C71 | `Model/Art.lean`: `main` and `run` with the commands of the other files (C70, C56, C33, C27, C35, C36, C55), `work_dir!`, `PathAbs::new`, and `export_html` with `unpack_frontend` as a list of actions on the disk. The archive with the page is a list of paths with contents; the level of the log is left out; only `serve` can be interrupted | `C71_html_iff`: induction over the parts of a path and over the files of the archive, with the files of the others as frame; `C71_fresh`, `C71_again`, `C71_path`, `C71_html_iff_ready`, `C71_html` (with C63), `C71_hosted` (invariant over all histories of a page), `C71_status`, `C71_changes` (with C49, C55, C56), `C71_outside`, `C71_no_dir`, `C71_fmt_type`, `C71_runs`, `C71_refused`, `C71_main`, `C71_serve_reads`, `C71_half` |
| C72 | `Spec/Session.lean`: sequences of commands (`Ends` of `Model/Art.lean`) and of changes by others; `serve` is not one of the commands, a server that changes nothing in the project is covered by the changes of others, one that changes it by C36, C46 and C53 | `C72_local` (walks and files depend on the paths below the roots only), `C72_tree`, `C72_apart`, `C72_session` (invariant over all sequences, with C46 for each `fmt`), `C72_check` (with C33 and C46), `C72_files` (invariant: every artifact file holds what `fmt` would write), `C72_export_into_code`, `C72_export_into_design` |
| C73 | `Model/Archive.lean`: `tar_frontend` and `tar_dir` of the build script with the bytes of the archive (old headers: name, octal numbers, checksum, blocks of 512 bytes), and the reading of such an archive by `Archive::unpack`; the format is that of the library tar as documented. Left out: errors of the disk while packing, symbolic links, the permission bits, entries that are no files | `C73_fails_iff` (induction over the listing), `C73_unpacks` (the reader finds the header that was written: octal numbers, checksum, names; induction over the tree), `C73_complete_iff`, `C73_good`, `C73_page` (with C71), `C73_lost`; `C73_damage`, `C73_unnoticed` (what the sums in the headers notice) |
| C74 | `Spec/Life.lean` over the models of C36 (server), C46 (saving) and C71 (commands): `Holds` (reading the disk gives the project), `Storable`, `Clean` (no edits by others, no killed server, no modification that fails while it writes), `Life` | `C74_read`, `C74_modify` (with C46 and the file set after saving), `C74_served` (invariant over all histories of a server), `C74_answer`, `C74_restart`, `C74_life` (induction over the life, with C72 for the commands). What happens without the conditions: `C36_stale_after_failure`, `C36_create_then_reload`, `C46_accepted_then_crashes` |
| C75 | `strfmt` as called by `strfmt_code_url`, character by character (`Model/Address.lean`; the library from memory, version 0.1.6); what a format after `:` does is a parameter that accepts or refuses a format without looking at the value | `Spec/Address.lean` has the grammar of patterns. `C75_format` (both directions, by induction over the pattern), `C75_any`, `C75_checked` (C55_bad_url without its hypothesis about the library), `C75_shown`, `C75_usual`, `C75_distinct`, `C75_chars`, `C75_one_line`; against the intention: `C75_same`, `C75_raw`, `C75_breaks` |
| C76 | the routes, `handle_rpc` from the bytes of the body on, `handle_options` and `setup_headers` (`Model/Http.lean`); which paths belong to the route and what happens to all other requests (static files, `HEAD`) are parameters; headers that the library adds are left out; `str::from_utf8` is the decoder of Lean's library, proved to accept exactly the bytes of texts | `Spec/Http.lean` has the rules of browsers for requests to other origins (the part of the Fetch standard without credentials; newer rules about requests to private networks are not in it). `C76_call`, `C76_same`, `C76_harmless`, `C76_status`, `C76_readable`, `C76_preflight` (both directions), `C76_unrouted`; over all histories of the server: `C76_any_page`, `C76_reads` (with C63), `C76_writes`, `C76_kill` (with C01, C36) |
| C77 | `Model/Config.lean`: a reader for the settings with all their fields, for a larger part of TOML than in C68 (truth values, tables of any name); numbers, dates, texts over several lines, tables on one line and lists of tables are not read, and neither are tables within those that say how something is written | `Spec/Config.lean`: grammar, rules of TOML and the meaning of each field as separate relations. `C77_reads` (both directions), `C77_unambiguous`, `C77_extends` (the reader of C68 is a part of this one), `C77_ignored`, `C77_misspelt` (a line at any place), `C77_toc`, `C77_toc_on`, `C77_init`; with C55: `C77_export` |
| C78 | `Model/Export.lean` (as in C55). How headings are marked is not part of the code: it is an arbitrary function, `slug` | `Spec/Links.lean`: `Leads`, which references are in texts and in graphs. `C78_text`, `C78_contents`, `C78_graph` (to the right section and to no other with one rule, nowhere with the other), `C78_no_rule` (for every function). Uses the specification of the whole document from C55 and that a name differs from every name in small letters |
| C79 | reading a project (`Model/Read.lean`) with everything it is made of, to the sorted project that is shown | `Spec/Depends.lean`: `Pairs` (a relation that pairs artifacts with all that is below them), `InBoth`. `C79_rule` carries the rule of C16 over to the project that is shown, `C79_pairs` by induction along parts, `C79_local`, `C79_one`, `C79_moved` (with or without cycles) from it, `C79_cycle` |
| C80 | two runs of `modify_project` one after the other (`Model/Modify.lean`, `Model/Save.lean`, `Model/Read.lean`) | `Spec/Undo.lean`: `Back`, `TakesBack` (operation by operation, any order), `NoMerge`, `RootsIncluded`. `C80_exists`, `C80_again` (no request after a saved one is refused for what was loaded) and `C80_back` from the reload theorem of C46, the exact effect of a batch (C25), the exact reasons for a refusal (C22, C23, C24) and the transport of lints between projects with the same artifacts. `C80_merge` and `C80_excluded` show that the last two conditions are needed. As in C74 the disk is meant up to the order and layout in the files |
| C81 | several runs of `modify_project` on the disks they leave, as in C80 | `Spec/Split.lean`: `SameAnswer`, `DiskFailed`. `plan_same` (two batches on two projects that fit equally well and leave the same artifacts are decided in the same way), `split_fits` (what a second batch finds after a first one), reload (C46), `C81_split`, `C81_order`; `C81_chain` shows that the batches have to be about different ids |
| C82 | `create_backups`, `save_project`, `remove_backups` with walker, workers, main thread, both bounded channels and the disk in one transition system (`Model/Team.lean`); it joins the disk of `Model/Live.lean` and the channels of `Model/Chan.lean` | `Spec/Team.lean`: `SameResult`, `FailReported`, `Interrupted`. Refinement: a simulation of `Live` (`sim_reaches`) with the multiset of lints as invariant: `C82_sound`, `C82_modify`; C27 and C49 carry over: `C82_safe`. Invariant of writing (`writes_reaches`): `C82_crash`. `C82_stuck`, `C82_never_stuck`; `C82_can_block` builds the run that blocks: finding 59. That a run has to end is C66, for the channels alone |
| C83 | `read_project`, `Project::lint`, `modify_project` as for C14, C40 and C74, no new model | `Spec/Reports.lean`: `Complaint` (one constructor for each reason, with the text that the user sees), `SameLint` (the same place, names that differ only in case), `Explained`. `C83_complete`: both lists are exactly the complaints of their level and strictly sorted. `C83_between` for two projects that know the same places in the code; `C83_modify` for saved batches in both directions, for all orders of the threads at all readings; `C83_create` |
| C84 | `modify_project` with the disk as for C26, C46, C57 and C74, no new model | `Spec/Bytes.lean`: `Edits` (a series of saved batches), `SameDisk` (the same at every path that is no backup). The invariant `Left` says for every path what a series leaves there: `C84_histories` by induction on the series. Corollaries: `C84_return`, `C84_back` (with C80), `C84_order`, `C84_split` (with C81). `C84_first` shows that the condition of `C84_return`, a disk that artifact has written, is needed |
| C85 | `read_project` and `modify_project` as before, no new model | `Spec/Layout.lean`: `SameArtifacts` compares what was written, `ShownSame` what is shown, `SameReports` what is told. `C85_layout` from the contents of a loaded project (`read_facts`) and the dependence of completion on names and links (C79); `C85_reports` from the list of complaints (C83); `C85_move` for a saved batch `MovesOnly` with C25 and C74 |
| C86 | several runs of `modify_project` on one disk (`Model/Pair.lean`), over the steps of `Model/Save.lean`; a program reads the project in one moment; files that another program renames, truncates or removes while they are open get any content, there or in the backup (`Tick.stray`, `reopen`, `vain`) | `Spec/Pair.lean`: `Ours`, `AllGone`, `Wiped`. `C86_frame` by an invariant on disk and programs; `C86_alone` shows that one program in this model is `modify_project`; `C86_last` from what writing leaves on any disk (`late_left`). `C86_lost`, `C86_wiped`, `C86_ruin`, `C86_reader` are concrete runs |
| C87 | the exported document of C55 (`Model/Export.lean`, `Model/Dot.lean`) | `Spec/Headings.lean`: the lines that are a `NameLine` of the markdown format (`headings`), and what must stay within its line (`Unbroken`). `C87_headings`, `C87_exported`: every part of the document is a block of lines (`HeadBlock`); in the metadata and in graphs every `#` is in a line that ends with `;` or `>` (`Shut`); the lines of a text correspond to those of its replacement (`text_rows`), and name lines in texts are errors by C83. `C87_once`. `C87_forged_done`, `C87_forged_graph` are concrete projects |
| C88 | modifying and saving of C23-C27 (`Model/Modify.lean`, `Model/Save.lean`) | `Spec/Recover.lean`: what moving back does (`PutBack`, a relation between disks, no program), what is needed of disk and batch (`Sound`, `Fits`), what a good outcome is (`Recovered`). `C88_restore`, `C88_all` by an invariant over the steps (`kept_reaches`, `around`: each file is in place untouched, or its content is in its backup, or the removing has begun; all else but artifact files and backups is as before). `C88_crash`, `C88_error`, `C88_backups` for whole runs, `C88_determined`: the disk of after does not depend on the run. `C88_ambiguous` is two concrete crashes, `C88_no_procedure` follows for all functions |
| C89 | the server of C36 with its `edit` event (`Model/Serve.lean`) | `Spec/Hand.lean`: which answers make the server look at the files (`Looks`), and what may change in the files (`OnlyAsked`). `C89_kept` by induction over histories from any state of the server: disk and server need not agree at the beginning, as they must in C74. `C89_refused` from C24. `C89_unseen` is a concrete history |
| C90 | completion as in C16, in exact arithmetic (how `f64` and `f32` differ from it is C58) | `Spec/Share.lean`: `width` (how many things are averaged) and `Route` (a way down with the product of the widths). `C90_share` by induction along the way; `C90_hundred` and `C90_zero` from it and the exact rounding threshold of C18, which they complete: they say when the displayed value can be trusted. `C90_hundred_sharp` and `C90_zero_sharp` are projects at the very limit. `C90_counts` compares two loads by well-founded induction along parts |
| C91 | `from_markdown` line by line (`Model/Raw.lean`), for arbitrary text; the YAML library is a parameter (C67 is about the library itself) | `Spec/Grammar.lean`: a grammar without state, `Cut` (lines to pieces), `Body` and `Says` (a section to an artifact), `Means` (pieces to artifacts). `C91_cut`: the grammar is unambiguous and total. `C91_reads` is an equivalence, from a run over the pieces (`Lemmas/Grammar.lean`). `C91_above` and `C91_unclosed` are equalities of whole results, errors included. `C91_removed` is a concrete project |
| C92 | completion as in C16, in exact arithmetic | `Spec/Tested.lean`: `testWidth` and `TestRoute` for the tested ratio, `WithTests` (code comes with its tests). `C92_share` by induction along the way, `C92_hundred` and `C92_zero` from it and the rounding threshold; `C92_hundred_sharp` and `C92_zero_sharp` are projects at the limit. `C92_tst_monotone` by well-founded induction along parts: it adds to C48 the condition under which the tested ratio is monotone too; `with_tests_case` is the counterexample of C48 with the condition met |
| C93 | `from_markdown` as in C91 | `Spec/Merge.lean`: `IsPart`, on the grammar of C91. `C93_join` from `C91_reads` and the uniqueness of the pieces; `C93_parts` by induction on the parts, `C93_reorder` and `C93_move` along permutations. `C93_needs_closed` and `C93_needs_start` show that both conditions are needed |
| C94 | `from_markdown` as in C91, with its errors | `Spec/Fault.lean`: `Wrong`, what is wrong with a section, and `FirstWrong`, on the grammar of C91. `C94_reported` is an equivalence, by the same route as `C91_reads` with failures in place of results (`sections_failed`, by induction on the sections). `C94_first` and `C94_second` follow for joined texts as in C93, `C94_heads` by induction on the pieces |
| C95 | completion as in C16 and C79 | `Spec/Better.lean`: `NoWorse`, counting finished and unfinished slots. `C95_slots` is an equivalence (many parts at 0 or at 1 show that both conditions are needed); `C95_spc`, `C95_tst` by induction along the links of two projects; `C95_done` is the case of the done field, `C95_done_lowers` shows that its condition is needed |
| C96 | completion as in C16 and C79 | `Spec/Grow.lean`: `StillThere`, `AllAt` and `TestsAt` (an inductive set of artifacts with everything below at 1 or at 0). `parts_split`: the parts of an old artifact are those it had and new ones; `C96_finished`, `C96_tested`, `C96_planned`, `C96_untested` by induction along the old links; `C96_cycle_lowers` shows that the condition on cycles is needed |
| C97 | reading a project (C20), markdown (C91), mistakes (C94) | `Spec/Origin.lean`: `Comes` says what an artifact shown has to do with one written, `Stands` and `Breaks` are the grammar of C91 and the abnormal end of C94. `C97_shown` for every markdown file found, `C97_only` for every artifact shown; both alternatives happen (`shown_case`, `left_out_case`). As in C20 at least one thread of each kind survives |
| C98 | `mapDe`, `artDocDe`, `loadFile` (C12, C20) | `Spec/Entries.lean`: `Entry` is what an entry says on its own, `Left` what is left of entries with first spelling and last value, `FirstBad` the first entry that cannot be read. `C98_reads` and `C98_fails` are equivalences; `C98_lost` is the loss; `C98_shown` the whole way to the project, as C97. `data_case` runs it with the JSON of C62 |
| C99 | `parseLocations`, `joinLocations`, `determineArtifacts`, `ReadsProject` (C09, C10, C20) | `Spec/Places.lean`: `RefAt` is a reference in the text of a source file in terms of the tokens of C09. `C99_shown` composes scanning, joining, linking and sorting; `C99_places` is the same for all that the code refers to, `C99_once` says that a second place is impossible, `C99_exported` (in `Props/Warned.lean`) carries it to the places shown in an exported document (C55). `place_case` has a skipped region, a subname spelled otherwise, and a reference after one that ends the thread |
| C100 | `lintCodeImpls` and all of C99 (C41, C83) | `Spec/Warned.lean`: `RightRef` is what a reference needs, `Wrong` (C83) why it is wrong. `C100_only` and `C100_all` are the two directions, `C100_clean` the equivalence; by C83 (complaints about recorded places) and C99 (recorded places are references). `warn_case` has one warning of each kind; in one the name is spelled as in another file than the one the warning is about |

## 6. Findings: where code and expectation disagree

Each line names the theorem that shows it.

1. `(?i)` in the name regex lets U+017F through and the constructor then panics: `C01_no_panic_false`, `C01_panic_iff`;
   the same while scanning code (`C09_panics`) and in the text reference lint (`C40_crash_iff`).
2. `check_paths` inverts the exclude check: it accepts files that are never read and refuses files that are read
   (`C28_accepted_not_read`, `C28_read_not_accepted`, `C28_inverted`).
3. There is no lint for cyclic `partof`, although the comment at artifact-data/src/graph.rs L79-80 announces one
   (`C19_silent`, `C19_no_cycle_lint`).
4. A markdown text with a line of three backticks, or with `\r\n`, is not restored by save and load
   (`C21_fence_loses_text`, `C21_cr_lost`), and the text lint does not notice (`C42_fence_false`).
5. Two artifacts of one TOML or JSON file whose names differ in case are merged silently (`C11_one_file_lost`; in general `C98_lost`: the first spelling and the last value stay, links and text of the others are gone; `data_case`).
6. A file listed directly in `artifact_paths` is loaded although excluded or of an unknown type, and overlapping paths
   load a file more than once (`C29_artifacts`, examples beside it).
7. `..` in the settings may climb out of the project, and above the root it panics (`C51_dotdot`).
8. Which spelling of a name is shown for code references and in `parts` depends on the thread schedule (`C20_case_matters`);
   nothing else does (`C20_same_but_spelling`).
9. A design file on which a worker panics is dropped and the read succeeds without a lint (`C20_panicking_file_lost`).
10. An update that changes nothing is left out of the overlap check. So "create A, update A to A" is accepted and the
    reverse order is refused, and likewise "update A to A, delete A" (`C26_chained`, `C24_stale_accepted`); otherwise the order
    of a batch does not matter (`C26_order`, `C26_same`).
11. Backups replace the extension, so `a.md` and `a.toml` share one: the second overwrites the first, and after a crash
    the content of the first is nowhere (`C27_same_stem_loses`).
12. An artifact path that is a file is removed together with the backups, after it was written, and the modification returns
    without error (`C27_file_root_removed`).
13. After a crash the next modification removes the backups, also those that hold the only copy (`C27_second_run_loses`).
14. An error while writing is returned with the disk changed and the backups not moved back; creating an artifact in a
    directory that does not exist does this (`C23_save_error_changes_disk`).
15. Formatting removes artifact files that define no artifact, drops the text above the first artifact of a markdown file
    (`C46_notes_removed`), and removes files that merely have the extension of a backup (`C49_foreign_backup_removed`).
16. A modification whose text holds a reference with U+017F (`[[ſPC-a]]`) is accepted and saved, after which every read of the
    project panics (`C46_accepted_then_crashes`).
17. Two different artifacts can have the same bytes to hash: the list `partof` has no length or end mark before `done`, so a last
    design in `partof` can be read as `done` with text that starts with NULs (`C30_collision`). A change of case in `partof` gives
    the same id, so the conflict check does not see it (`C30_partof_case`).
18. A shortened id text is accepted as another id, filled up with zeros (`C31_short_accepted`); an id text that is too long panics
    instead of being refused (`C31_accepts`).
19. `trim_base` compares characters, not components: `/foobar/x` is shown as `bar/x` in the project `/foo` (`C39_sibling`).
20. `art ls`: the help text joins search fields by "or", the code by "and" (`C34_help_says_or`); the filters `-s`/`-t` have no
    effect (`C34_completion_ignored`); a search in the subnames lists everything (`C34_subnames_ignored`); `-f all` is always refused
    (`C35_all_refused`); the long form prints the separators as entries (`C34_long_separators`).
21. A request that panics while it has the mutex poisons it, and every later request panics too (`C36_crash_is_final`). One id that is
    too long or one name that crashes the name parser in the operations is enough (`C36_panic_in_params`), and so are two well-formed
    requests (`C36_create_then_reload`).
22. A modification that fails when it is written changes the disk, but the server goes on serving the project from before
    (`C36_stale_after_failure`).
23. The hash of the page is matched anywhere in it, so `edit/REQ-foo` shows an artifact
    (`C47_unanchored`); a hash with U+017F in the type of a name panics in `from_hash` (`C47_no_panic_false`; browsers encode such
    a hash, so this needs a caller that does not).
24. What is typed into a form after save was pressed and before the response is removed with the form
    (`C37_late_keystrokes_false`). Pressing save on a new form without a name panics, which ends the page and loses every form
    (`C37_save_new_panics`, `C37_save_panics_iff`). Messages of level info are shown as errors (`C37_infos_empty`). A page without a
    server refuses to reload but not to save (`C37_static_sends`).
25. An artifact with an empty `done` is done, but its form holds no difference between an empty and a missing `done`: saving the untouched form
    makes it not done (`C53_untouched`, second half).
26. In the graph of an artifact that is a part of itself the arrow is drawn twice and the artifact three times, only once highlighted
    (`C54_artifact`, `exLoop_drawn`); the graph of a search draws it once.
27. The export opens (and empties) its destination before it makes the document and crashes when an address cannot be made, so with an invalid `code_url` a document that was there before is
    replaced by the beginning of a new one (`C55_bad_url_overwrites`). `art check` reports the pattern as an error, but as the project counts as read, the other commands go on.
28. A graph without lines swallows the text after it up to the next fence (`C55_empty_graph`). The message that graphs cannot be within graphs can never be shown
    (`no_inner_graph`). `[[NAME.sub]]` with an artifact that does not exist is shown without its subname (`RefShown`). Links to code show lines counted from
    zero while their addresses count from one (`exDoc_text`).
29. A reference like `[[ſPC-a]]` typed into a form crashes the web page, which shows the text with the same function (`C55_typed_crash`).
30. `art init` replaces an existing `design/purpose.md` without a copy (`C56_overwrites`). If it fails or is killed after its first action it leaves `.art` behind, and then refuses for good
    (`C56_stuck`, `C56_never_resumed`).
31. `art fmt --type TYPE` is documented to set the type of all files; the option is accepted and has no effect (artifact-app/src/fmt.rs L36-47 never reads it; `C71_fmt_type`).
32. The completion that is shown can depend on the order in which threads deliver artifacts: sums of `f64` depend on their order and `round_ratio` only hides it when the true ratio is not half way
    between two thousandths. The same four artifacts are shown as 68.7% or 68.8% (`C58_order_matters`); never more than one thousandth apart (`C58_orders`). C16 and C20 are
    therefore statements about exact arithmetic.
33. The message that says that a request is already on its way, or that a static page cannot be reloaded, is not shown when it is written: `update` answers that nothing is to be drawn. The user sees
    nothing happen, and the message appears with the next change of the page (`C59_busy_unseen`). Closing the first of several messages moves the last one to its place (`C59_close_reorders`). The buttons
    for edit and save are shown on pages that cannot be edited (`C59_buttons`). An open edit without a name is hidden by every pattern that does not match the empty text (`C59_links`).
34. Typing `[[ſPC-a]]` into any form breaks the page whatever the browser and the project are (`C60_typed_crash`). A text with `</div>` in it breaks the page where it is shown, because
    the HTML has then more than one node (`C60_torn`, `C60_page`); such a text can be saved, and then its page can no longer be opened. In a graph a line like "```[[SPC-x]]" ends the graph early on the page, since the
    node put in for the reference begins with a line break and the result is searched for fences again (`C60_fence`). What the server answers with a failure is put into the page as HTML (`C60_message`).
35. `art ls --long` never shows the subnames, even if they are asked for (`C61_long_ignores`), and shows the commas between names as if they were names (C34). All subnames of an artifact that is declared
    done are red (`C61_done_red`). A declaration can have a line end, which breaks the row of the table (`C61_torn`), and it can read like "not directly implemented" (`C61_ambiguous`). The primary place and
    the others are printed without a space between them (`exDoc_table`).
36. A field of a JSON artifact that is misspelled is ignored without a message, and `art fmt` then removes it from the file (`C62_unknown_lost`).
37. The page throws the lints of every successful answer away: warnings about a project that was saved or reloaded are never shown (`C63_lints_unseen`). On the other hand the body of an answer with a bad status, and `{:?}` of an error, are put into the page as HTML without quoting (`statusMsg`, `Got.msg`).
38. `md_toc` has two defaults: settings without `[export]` get no table of contents (the derived `Default`), settings with an empty `[export]` get one (`return_true`) (`C63_toc`).
39. If an artifact path lies inside another, a file in both is renamed twice when backups are made. The second renaming fails if the file was sent twice before the first one; if the walk is slower, it is not sent twice and saving succeeds (`C64_overlap_depends_on_timing`, `C64_overlap_doomed`). Reading reports the artifacts of such a file as duplicates, so this concerns files without artifacts.
40. If four source files (or as many design files as there are processors) make a worker panic, all workers of that kind are dead and the files behind them are never looked at; the read succeeds without a lint (`C65_lost`).
41. `save_project` sends all files before it takes the first lint. If more than 256 + `num_cpus` files cannot be written (a full disk) it waits for ever, whatever the schedule, with all files renamed to backups; in the server the lock on the project is never given back (`C66_save_stuck`, `C66_full_disk_blocks`).
42. A `done` that ends with white space other than space, tab and line ends (no-break space, U+2028, U+3000, ...) is written without quotes, and `push_attrs` trims the end of the attributes: without `partof` the white space is gone after saving (`C67_lost`, `C67_fmt_lost`). `done` with some control characters (bell, backspace, U+007F, ...) is written without quotes too, which is not YAML (`C67_scalar`).
43. toml 0.4.10 escapes the control characters below U+001F but writes U+001F itself as it is (from memory of the library: `c if c < '\u{1f}'`), which is not TOML. A text with this character can be read (`\u001F` in TOML or JSON, or as it is in markdown); after saving it in a TOML file that file, and with it the whole project, cannot be read any more (`C68_unreadable`, `C68_fmt_lost`).
44. `art ls` ignores case unless the pattern starts with `(?`, which is meant for options such as `(?-i)`. A pattern that starts with a group without a number starts with `(?` too: `art ls '(?:req|spc)-a'` does not find `REQ-a`, while `(req|spc)-a` does, and so does the same pattern in the search field of a page (`C69_ls_group`, `C69_page_word`).
45. The pattern `|a` is accepted by `art ls` (the `(?i)` that is put before it is passed over as an alternative) and refused on a page (example beside `C69_page_word`).
46. `-v` of `art init`, `check`, `fmt`, `ls` and `export` says "Pass many times for more log output", but it takes a number and is refused when it is repeated: `art check -vv` and `art check -v 1 -v 1` are errors. Only `art serve` counts it (`C70_repeated`, `C70_verbose`, `C70_counted`).
47. The last arm of `run` (artifact-app/src/lib.rs L88-94, an unknown sub-command) is never reached (`C70_known`).
48. An `art export html` that fails may have replaced files that were there before (`C71_half`).
49. The PATH of `art export` is resolved against the current directory even when `--work-dir` is given (`C71_html` with `C71_path`).
50. `art serve` with a port of 65536 or more does not end: the thread that would listen panics and the main thread waits for an interrupt (artifact-app/src/serve/handler.rs L56-72; part of the model `Ends`, not a theorem).
51. `art export md` accepts any path. A document written into a code path implements the artifacts of its table of contents, because its links (`href="#SPC-B"`) are code references (`C72_export_into_code`); with several links to one artifact the next command reports duplicate references. A document written into an artifact path makes the project unreadable, because every artifact is there twice (`C72_export_into_design`).
52. The build script ignores the result of `tar_dir` for directories in the directory (artifact-app/build.rs L122). A path of more than 100 bytes below the top makes the rest of its directory disappear from the page, and the build succeeds (`C73_lost`); at the top the build fails (`C73_fails_iff`).
53. The name of a file goes into links as it is (artifact-ser/src/markdown.rs L318-336, L364-372): a quote in it ends the link and what follows is read as attributes, `#`, `?`, `%` and blanks change the address (`C75_raw`, `C75_breaks`). And `trim_base` makes the addresses of `/pq/x` and `/p/q/x` the same for a project in `/p` (`C75_same`).
54. Any web page that is open in a browser on the same machine can read and change the project and stop the server (artifact-app/src/serve/handler.rs L42-45, L175-207, L228-240): every answer says `Access-Control-Allow-Origin: *`, and a call is accepted whatever its `Content-Type` and `Origin`, so forms and scripts of any origin can send it without a question (`C76_reads`, `C76_writes`, `C76_kill`). The answer to such a question also offers `PATCH` and `DELETE`, which have no route (`C76_unrouted`), and errors of calls have the status 200 (`C76_status`); `config_json_res` (L242-246) is never called.
55. Misspelt settings are never reported: no struct of the settings denies unknown fields (artifact-data/src/settings.rs L27-41, artifact-ser/src/lib.rs L64-109), so `md_tco = false` leaves the table of contents on and `[exports]` is ignored as a whole (`C77_ignored`, `C77_misspelt`). An empty `[export]` at the end of the file, or only `[export.md_name]`, turns the table of contents on (`C77_toc_on`, see 38).
56. Links in texts and in the table of contents of an exported document are written `#REQ-A` (artifact-ser/src/markdown.rs L280, L303, L390), links in graphs `#req-a` (artifact-ser/src/md_graph.rs L167), and the document contains no marks of its own. In every document with both, some links do not lead to the section they are meant for, whatever marks are made from the headings (`C78_no_rule`); with marks in small letters, as usual, all links outside of graphs are dead.
57. An update may turn an artifact into an exact copy of another one: `perform_operations` inserts the new value under its id without looking whether that id is taken (artifact-data/src/modify.rs L205-216), while `create` does look. The two artifacts become one without any message, and changing it back leaves the other one lost (`C80_merge`).
58. An artifact path inside an excluded path is read all the same (the walk compares excluded paths with what it meets below the artifact path), but `check_paths` refuses every file there (artifact-data/src/modify.rs L137-146). That is the second half of 2; a consequence is that an artifact there can be deleted and not be created again (`C80_excluded`).
59. Finding 41 with the disk: as soon as a project has more than 256 + `num_cpus` files, a disk that is full when the first file is written can leave `modify_project` waiting for ever, and at that time no artifact file has its name any more (`C82_can_block`); with fewer files this cannot happen (`C82_never_stuck`).
60. The first batch that is saved, also one without an operation, rewrites all artifact files that are not formatted, those of untouched artifacts as well; the difference that version control then shows is not the edit (`C84_first`). From then on the files depend only on the artifacts (`C84_histories`).
61. Nothing keeps two programs from changing one project at the same time. The one that writes last undoes what the other has saved, and both report success (`C86_last`, `C86_lost`). If one reads while the other has its files moved to backups, it sees a project without artifacts and without errors (`C86_reader`), and then writes that: after two `artifact fmt` that both succeed nothing is left (`C86_wiped`). If both are killed, the backups can have been overwritten by empty files (`C86_ruin`).
62. The text of `done` goes into the exported document as it is: with newlines in it the document gets a section about an artifact that does not exist (`C87_forged_done`). In a graph a reference becomes a node that begins in a new line, so `# REQ-x[[.y]]`, which is no beginning of an artifact in the text, becomes one in the document (`C87_forged_graph`). The check for such lines looks at the text only, artifact-data/src/project.rs L348-366.
63. After a crash the disk does not say whether the backups must be moved back or removed (`C88_ambiguous`): nothing marks the moment from which everything new is written, artifact-data/src/modify.rs L78-84. No recovery procedure that sees only the disk can be right (`C88_no_procedure`), and the name of a backup does not even tell the extension of its file. If all backups are there, moving them back is right (`C88_backups`).
64. The server does not notice that files are edited by hand: it shows the old project, without a hint, until someone reloads or saves (`C89_unseen`), artifact-app/src/serve/handler.rs L77-90. Nothing is lost by that (`C89_kept`, `C89_refused`), except for edits made while a save runs (finding on C86).
65. The displayed 100% is right for everything that is within a product of 2000 of averaged things, and not beyond: eight artifacts in a row, seven of them with at most five things each, are enough to hide that the last one is not implemented at all (`C90_hundred`, `C90_hundred_sharp`), artifact-data/src/graph.rs L161-163.
66. A markdown file with an attribute block that is not closed is accepted, and everything after the line that opens the block is ignored, artifacts included (`C91_unclosed`, artifact-data/src/raw.rs L274-284: the `break` of `next_line!` only leaves the inner loop). Nothing is reported, and the next `art fmt` or save removes the ignored artifacts from the disk (`C91_removed`).
67. The shown "100% tested" has the same limit as the shown 100% (finding 65): eight artifacts in a row can hide that there is no test at all for the last one (`C92_hundred_sharp`). An artifact without any code can be shown as 100% tested, and its first code reference lowers this unless it comes with all `.tst-` subnames (`with_tests_case`, `C48_tst_monotone_false`), because `to_statistics` counts these subnames only once there is code.
68. Two markdown files that are both read without an error can be joined to a file that is read without an error and has fewer artifacts (`C93_needs_closed`, a consequence of finding 66).
69. A name that is there twice is reported only when the second section of that name has been read to its end, so any other mistake in that section hides it (`within_case`); each run reports one mistake.
70. Marking an artifact as done can lower its percentage and those above it, if it has subnames with code: all its finished slots become a single one (`C95_done_lowers`). The program reports an error then, but goes on showing the lower percentage.

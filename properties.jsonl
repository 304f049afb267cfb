{"id": "C01", "title": "Artifact names: exact accepted language, no crash", "statement": "Parsing a string as an artifact name either returns a name or an 'invalid name' error, never a panic, and it succeeds exactly on TYPE-seg(-seg)* with TYPE one of REQ/SPC/TST and every seg a non-empty run of letters, digits and underscores, in any case. (The code is case-insensitive in the Unicode sense, so the no-panic half fails for a few strings; the exact accepted set is stated and the failing inputs are characterised.)", "quantifier": "every Unicode string", "why_tests_cant": "the input space is infinite and the failing inputs are two exotic code points out of 1.1 million that no ASCII test generator produces", "anchors": ["artifact-ser/src/name.rs: InternalName::from_str, NAME_VALID_STR, NAME_VALID_RE"]}
{"id": "C02", "title": "Artifact name identity ignores case and is coherent", "statement": "Two accepted names are equal exactly when their texts agree after ASCII upper-casing; equal names have the same type, hash the same, and compare Equal in the ordering, and names that compare Equal are equal; printing or serialising a name gives back exactly the text the user wrote, and parsing that text again gives an equal name.", "quantifier": "every pair/triple of accepted names", "why_tests_cant": "hash/eq/ord coherence is a statement about all pairs; the maps that hold the whole project silently break if one pair disagrees", "anchors": ["artifact-ser/src/name.rs: impl PartialEq/Ord/Hash for InternalName, Name::as_str, Serialize/Deserialize"]}
{"id": "C03", "title": "Subnames and full references are unambiguous", "statement": "A subname string is accepted exactly when it is '.', an optional 'tst-', and a non-empty run of name characters; subname identity ignores ASCII case; and the printed full reference NAME+SUB determines both the name and the subname.", "quantifier": "every string; every pair of (name, optional subname)", "why_tests_cant": "injectivity over all pairs cannot be sampled", "anchors": ["artifact-ser/src/name.rs: SubName::from_str, SubName eq/ord/hash, Name::full, VALID_SUB_NAME_RE"]}
{"id": "C04", "title": "Automatic family is well founded", "statement": "For every accepted name the parent and the auto-partof are computed without panic; the parent has the same type and strictly fewer elements, the auto-partof has the next-higher type and the same remainder, both respect case-insensitive identity, REQ roots have neither; following automatic links never returns to the start.", "quantifier": "every accepted name and every chain of automatic links", "why_tests_cant": "chains are unbounded and the functions contain expect/unwrap whose safety depends on the whole accepted language", "anchors": ["artifact-ser/src/family.rs: Name::parent, Name::auto_partof"]}
{"id": "C05", "title": "Automatic links are added on load and removed on save without disturbing the user's own links", "statement": "For every set of artifacts, the partof shown for an artifact is exactly the user-written links plus the automatic links whose target exists; converting the loaded artifact back to its editable form gives exactly the user-written links minus automatic ones, and that editable form has the same content id as was displayed, so an untouched artifact can always be referred to by its displayed id.", "quantifier": "every collection of artifacts with arbitrary partof sets", "why_tests_cant": "the inverse property must hold for every graph, including links that coincide with automatic ones", "anchors": ["artifact-ser/src/family.rs: auto_partofs", "artifact-ser/src/lib.rs: strip_auto_partofs", "artifact-data/src/artifact.rs: determine_partofs", "artifact-lib/src/lib.rs: ArtifactIm::clean, From<Artifact> for ArtifactIm, hash_im"]}
{"id": "C06", "title": "Collapsed name syntax expands to exactly the names it denotes", "statement": "Expanding a collapsed list such as REQ-[foo, bar-[x, y]] yields exactly the full names obtained by distributing prefixes over brackets, in order, for every nesting depth; the call terminates on every input; it reports an error exactly when brackets are unbalanced, a bracket has no prefix, or an expanded piece is not a valid name.", "quantifier": "every string and every nested bracket expression", "why_tests_cant": "nesting is unbounded; the parser builds intermediate comma strings and re-splits them, whose correctness is a global property", "anchors": ["artifact-ser/src/expand_names.rs: expand_names, parse_collapsed"]}
{"id": "C07", "title": "Text cleaning is canonical", "statement": "Cleaning artifact text is idempotent, changes nothing except trailing whitespace, and two texts that differ only in trailing whitespace clean to the same text up to a final newline.", "quantifier": "every string", "why_tests_cant": "infinite input space with Unicode whitespace", "anchors": ["artifact-ser/src/lib.rs: clean_text, string_trim_right", "artifact-data/src/raw.rs: TextRaw Serialize/Deserialize"]}
{"id": "C08", "title": "Subnames found in text are exactly the bracketed ones", "statement": "The subnames of an artifact are exactly the well-formed [[.sub]] occurrences in its text, each once, regardless of what surrounds them.", "quantifier": "every text", "why_tests_cant": "regex scanning over arbitrary text; overlaps and backtracking are not exhaustively testable", "anchors": ["artifact-ser/src/name.rs: parse_subnames, TEXT_SUB_NAME_STR"]}
{"id": "C09", "title": "Source references are found with the right line and skip regions are honoured", "statement": "Scanning a source file reports one location for every #NAME or #NAME.sub reference that is not between #ART-SKIP and the next #ART-DONE, with its zero-based line, and nothing else; skip state carries over lines and never leaks to another file.", "quantifier": "every sequence of lines and every number of references per line", "why_tests_cant": "skip state is history dependent; line contents are arbitrary", "anchors": ["artifact-data/src/implemented.rs: parse_locations, SRC_NAME_RE"]}
{"id": "C10", "title": "No code location is silently lost or invented", "statement": "If joining the scanned locations reports no duplicate error then every scanned (name, subname, location) is retrievable from the result and every retrievable location was scanned; a duplicate error is reported exactly when some (name, subname) was scanned at least twice, and it names both locations.", "quantifier": "every list of scanned locations, in every arrival order", "why_tests_cant": "arrival order depends on thread scheduling; needs all permutations of all multisets", "anchors": ["artifact-data/src/implemented.rs: join_locations, insert_secondary, duplicate_detected"]}
{"id": "C11", "title": "Duplicate artifact definitions are always reported", "statement": "Joining the artifacts of all files reports an error exactly when two of them have the same name (ignoring case); if no error is reported every definition is present under its own name with its own file.", "quantifier": "every list of loaded artifacts in every arrival order", "why_tests_cant": "depends on scheduling and on all pairs of names", "anchors": ["artifact-data/src/raw.rs: join_artifacts_raw"]}
{"id": "C12", "title": "partof and parts are converse relations", "statement": "In every loaded project, B is listed in the parts of A exactly when A is listed in the partof of B, for all artifacts A and B; looking up the relation never panics even when a partof target does not exist.", "quantifier": "every set of artifacts and partof links, cyclic or dangling included", "why_tests_cant": "a relation over all pairs in all graphs", "anchors": ["artifact-data/src/graph.rs: determine_graphs, determine_parts, create_ids"]}
{"id": "C13", "title": "Dangling partof links are always reported", "statement": "A project has a 'partof does not exist' error exactly when some artifact lists a partof that is not defined; hence a project with no errors has every displayed partof link resolvable.", "quantifier": "every project", "why_tests_cant": "completeness of a lint quantifies over all projects", "anchors": ["artifact-data/src/project.rs: lint_partof_dne"]}
{"id": "C14", "title": "Type discipline of partof links", "statement": "A type error is reported exactly for links REQ->SPC, REQ->TST and SPC->TST (child -> partof); in a project without type errors every partof path goes through types of never-decreasing order (TST, then SPC, then REQ), so a requirement is never (transitively) part of a specification or test; automatic links never cause a type error.", "quantifier": "every project and every partof path of any length", "why_tests_cant": "paths are unbounded", "anchors": ["artifact-data/src/project.rs: lint_partof_types", "artifact-ser/src/family.rs: auto_partof, parent"]}
{"id": "C15", "title": "Completion is always defined and within 0..100%", "statement": "For every project (cycles and dangling links included) completion is computed without panic, for every artifact, and both ratios are between 0 and 1.", "quantifier": "every project", "why_tests_cant": "arithmetic over unbounded graphs with map lookups that panic when a key is missing", "anchors": ["artifact-data/src/graph.rs: determine_completed", "artifact-lib/src/lib.rs: Impl::to_statistics"]}
{"id": "C16", "title": "Completion obeys the documented rule and does not depend on processing order", "statement": "For every acyclic project the completion of each artifact, computed in exact arithmetic and rounded to thousandths, is the average over its own implementation slots and its parts as documented; these equations have exactly one solution, so the value does not depend on load order, id assignment or the topological order chosen. (What floating point changes is C58.)", "quantifier": "every acyclic project, every load order, every valid topological order", "why_tests_cant": "order-independence needs all linear extensions of all graphs", "anchors": ["artifact-data/src/graph.rs: determine_completed, create_ids", "design/data/artifact.md"]}
{"id": "C17", "title": "Tests: spc equals tst, and tests never count as implementation of non-tests", "statement": "In every acyclic project a TST artifact has equal spc and tst completion, and changing anything about TST artifacts never changes the spc completion of a REQ or SPC artifact.", "quantifier": "every acyclic project and every change to its tests", "why_tests_cant": "non-interference is a two-run property over all graphs", "anchors": ["artifact-data/src/graph.rs: determine_completed L120-138"]}
{"id": "C18", "title": "100% means everything below is done", "statement": "Before rounding, an artifact has spc (tst) ratio 1 exactly when it has at least one contributing slot and every contributing slot and part is at 1; the displayed value is within 0.0005 of the true ratio; the displayed 100% implies true 100% (false in general because of rounding; the exact threshold is proved).", "quantifier": "every acyclic project", "why_tests_cant": "the rounding failure needs an artifact with at least a thousand slots, which no test has", "anchors": ["artifact-data/src/graph.rs: round_ratio, determine_completed"]}
{"id": "C19", "title": "Cycles are detected exactly and reported", "statement": "Completion falls back to 0% for every artifact exactly when the partof relation has a cycle; and a project with a cycle carries an error saying so (the code comments promise this; the code has no such lint, which is proved).", "quantifier": "every project", "why_tests_cant": "cycle length is unbounded; absence of a lint for every cyclic project is a universal statement", "anchors": ["artifact-data/src/graph.rs: determine_completed L79-91", "artifact-data/src/project.rs: lint_errors, lint_other"]}
{"id": "C20", "title": "Reading a project is deterministic", "statement": "The project and lints returned by a read do not depend on the order in which worker threads deliver artifacts, code locations and lints, provided names are written with consistent case (the exact dependence on inconsistent case is shown). Completion is that of exact arithmetic; what floating point changes is C58.", "quantifier": "every interleaving (permutation of channel deliveries) of every project without duplicate definitions", "why_tests_cant": "the number of schedules is factorial and tests see only a few", "anchors": ["artifact-data/src/project.rs: read_project", "artifact-lib/src/lib.rs: Project::sort", "artifact-ser/src/lint.rs: Categorized::sort"]}
{"id": "C21", "title": "Markdown save/load round trip", "statement": "Saving artifacts to markdown and loading the file gives back the same artifacts (names with case, partof, done, text) for every artifact list accepted by the save path, for every name prefix setting and attribute style (fails for text containing an attribute code fence line, which is proved; exact safe class is stated).", "quantifier": "every list of artifacts with distinct names and every text", "why_tests_cant": "text is unbounded and the parser is line-mode dependent", "anchors": ["artifact-data/src/raw.rs: Formatter::to_markdown, Parser::from_markdown, insert_from_parts"]}
{"id": "C22", "title": "Formatting is idempotent", "statement": "Formatting a markdown file that was produced by the formatter changes nothing: format(parse(format x)) = format x.", "quantifier": "every artifact list accepted by the save path", "why_tests_cant": "fixpoint over all documents", "anchors": ["artifact-data/src/raw.rs: Formatter::to_markdown, Parser::from_markdown"]}
{"id": "C23", "title": "A rejected modification leaves the disk untouched", "statement": "If a modification request fails because of invalid load, overlapping ids, invalid paths, id mismatch or resulting project errors, then no file has been changed.", "quantifier": "every project, every list of operations", "why_tests_cant": "all-or-nothing over every batch and every failing position in the batch", "anchors": ["artifact-data/src/modify.rs: modify_project"]}
{"id": "C24", "title": "Optimistic concurrency: stale updates and deletes are rejected", "statement": "An update or delete whose original id is not the id of an artifact in the project as currently on disk makes the whole batch fail with HashMismatch; an accepted batch only removed artifacts whose current id was presented.", "quantifier": "every project and every list of operations", "why_tests_cant": "a lost-update guarantee quantifies over all histories", "anchors": ["artifact-data/src/modify.rs: perform_operations, check_overlap"]}
{"id": "C25", "title": "Batch semantics", "statement": "An accepted batch results in exactly the artifacts of the project minus those with a presented original id plus the new artifacts of creates and updates.", "quantifier": "every project and every accepted list of operations, of any length", "why_tests_cant": "the index map removal reorders entries; correctness for all sequences", "anchors": ["artifact-data/src/modify.rs: perform_operations, check_overlap"]}
{"id": "C26", "title": "Order of operations in a batch does not matter", "statement": "If one ordering of a batch is accepted by the overlap check then every reordering is accepted by it and yields the same set of artifacts (the exceptional case of chained ids is characterised).", "quantifier": "every permutation of every batch", "why_tests_cant": "factorially many orders", "anchors": ["artifact-data/src/modify.rs: check_overlap, perform_operations"]}
{"id": "C27", "title": "Saving is crash safe", "statement": "If the process dies at any point while backing up, writing or cleaning, the original content of every artifact file still exists, in place or in its backup, or all new files are completely written (fails when two artifact files in a directory share a stem, and when an artifact path is a file; both proved).", "quantifier": "every crash point, every thread interleaving, every project", "why_tests_cant": "crash points x interleavings", "anchors": ["artifact-data/src/modify.rs: create_backups, save_project, remove_backups"]}
{"id": "C28", "title": "A path accepted for writing is a path that will be loaded", "statement": "If the path check accepts the file of a created or updated artifact then that file is one the loader reads (fails: the exclude check is inverted; proved), and a path that the loader reads is never rejected.", "quantifier": "every settings value and every path", "why_tests_cant": "all include/exclude combinations", "anchors": ["artifact-data/src/modify.rs: check_paths", "artifact-data/src/settings.rs: walk_artifact_paths, walk_path"]}
{"id": "C29", "title": "Loader visits exactly the configured files", "statement": "Walking the artifact paths yields a file exactly when it lies under a configured path with no excluded directory in between, is not itself excluded and has an artifact extension, once per configured path containing it (files listed directly bypass the filters; characterised).", "quantifier": "every directory tree and settings", "why_tests_cant": "trees are unbounded", "anchors": ["artifact-data/src/settings.rs: walk_paths, walk_path, walk_artifact_paths"]}
{"id": "C30", "title": "Artifact ids identify content", "statement": "Two editable artifacts with different content feed different byte streams to the id hash (fails: collision of streams proved), and stream equality implies equal name text and file, and equal everything under the proved side conditions.", "quantifier": "every pair of artifacts", "why_tests_cant": "all pairs of unbounded contents", "anchors": ["artifact-lib/src/lib.rs: impl Hash for ArtifactIm, hash_im"]}
{"id": "C31", "title": "Ids survive serialisation", "statement": "Writing an id as text and reading it back gives the same id for every 16-byte value; the text has 22 URL-safe characters; distinct ids have distinct texts.", "quantifier": "all 2^128 ids", "why_tests_cant": "2^128 values", "anchors": ["artifact-ser/src/lib.rs: HashIm Serialize/Deserialize"]}
{"id": "C32", "title": "Lints are neither lost nor invented and are canonical", "statement": "After categorising and sorting, the error list contains exactly the error-level lints received and the other list exactly the rest, each once, in ascending order, independent of arrival order.", "quantifier": "every multiset of lints in every order", "why_tests_cant": "arrival order is schedule dependent", "anchors": ["artifact-ser/src/lint.rs: Categorized::categorize, sort"]}
{"id": "C33", "title": "Exit status of check", "statement": "art check exits non-zero with an error exactly when the project cannot be read or has an error lint, exits 2 exactly when there are only warnings, 0 exactly when there are no lints.", "quantifier": "every project", "why_tests_cant": "decision logic over all lint sets", "anchors": ["artifact-app/src/check.rs: run"]}
{"id": "C34", "title": "ls filter returns exactly the matching artifacts", "statement": "art ls lists exactly the artifacts for which every selected search field matches the pattern (a conjunction; the help text promises a disjunction, disagreement proved), in name order, each once; no pattern lists everything.", "quantifier": "every project, pattern predicate and field selection", "why_tests_cant": "all predicates", "anchors": ["artifact-app/src/ls.rs: filter_artifacts, run"]}
{"id": "C35", "title": "ls field flags", "statement": "Field strings are accepted exactly when they consist of known flags; the resulting selection equals the union of the named fields, its complement when all/A is present, and the default when nothing is selected.", "quantifier": "every field string", "why_tests_cant": "infinite strings; interplay of case, comma and all", "anchors": ["artifact-app/src/ls.rs: Flags::from_str, from_cmd, resolve_actual, invert"]}
{"id": "C36", "title": "Server requests are linearizable and failures do not change state", "statement": "For every sequence of requests, a read without reload returns exactly the result of the latest successful modify or reload (or the initial load); failed requests leave the served state unchanged.", "quantifier": "every history of requests with any outcomes of the underlying load/modify", "why_tests_cant": "histories are unbounded", "anchors": ["artifact-app/src/serve/handler.rs: rpc_read_project, rpc_modify_project, handle_read_project_params"]}
{"id": "C37", "title": "Web UI: one request in flight, edits are kept until saved", "statement": "For every sequence of UI messages at most one request is in flight; an edit is removed only by an explicit stop or by the success response of an update that contained it; a failed update keeps it. Keystrokes entered after pressing save survive (fails, proved).", "quantifier": "every sequence of messages", "why_tests_cant": "event histories are unbounded", "anchors": ["artifact-frontend/src/main.rs: update_model", "artifact-frontend/src/fetch.rs", "artifact-frontend/src/dev_prelude.rs: complete_editing"]}
{"id": "C38", "title": "Colours reflect completion monotonically", "statement": "Completion points and name colour are total (no panic), monotone in both ratios, green exactly when both displayed ratios are at least 1, and the CLI and the exported markdown agree on the class.", "quantifier": "every pair of ratios", "why_tests_cant": "continuum of ratios", "anchors": ["artifact-ser/src/lib.rs: Completed::spc_points, tst_points", "artifact-app/src/ls.rs: name_color, spc_style, tst_style", "artifact-ser/src/markdown.rs: completed_color"]}
{"id": "C39", "title": "Displayed relative paths are correct", "statement": "Trimming the project base from base/x gives x; a path outside the base is left unchanged (fails for a sibling directory sharing the base as string prefix, proved).", "quantifier": "every base and path", "why_tests_cant": "string boundary condition", "anchors": ["artifact-ser/src/ser.rs: SettingsSer::trim_base"]}
{"id": "C40", "title": "Invalid soft references are always warned about", "statement": "A warning is produced for a [[NAME]] or [[NAME.sub]] reference in text exactly when the artifact or the subname does not exist.", "quantifier": "every project and text", "why_tests_cant": "completeness of a lint", "anchors": ["artifact-data/src/project.rs: lint_artifact_text_refs"]}
{"id": "C41", "title": "Invalid code references are always warned about", "statement": "A warning is produced for a code location exactly when its artifact does not exist, is defined as done, or lacks the referenced subname; locations that count towards completion are never warned about.", "quantifier": "every project", "why_tests_cant": "completeness of a lint", "anchors": ["artifact-data/src/project.rs: lint_code_impls"]}
{"id": "C42", "title": "Text that would corrupt the file is rejected", "statement": "If an artifact's text passes the text lint and has no attribute fence, writing it in markdown and reading it back cannot create, split or alter artifacts; if a line would start a new artifact or end the attributes the lint fires.", "quantifier": "every text and every name-prefix setting", "why_tests_cant": "line recogniser equality between lint and parser for all lines", "anchors": ["artifact-data/src/project.rs: lint_artifact_text", "artifact-data/src/raw.rs: from_markdown"]}
{"id": "C43", "title": "Raw conversion round trip and no empty partof", "statement": "Converting an editable artifact to its raw form and back gives the same artifact for clean artifacts, and the raw form never contains an empty partof or empty text, so the serialisers that panic on empty partof never do.", "quantifier": "every artifact", "why_tests_cant": "panic freedom over all values", "anchors": ["artifact-data/src/intermediate.rs: from_raw, into_raw", "artifact-data/src/raw_names.rs: Serialize for NamesRaw", "artifact-data/src/raw.rs: push_attrs"]}
{"id": "C44", "title": "Done and subnames conflict is reported exactly", "statement": "An error is produced exactly for artifacts that are defined as done and define subnames; done overrides code locations for completion.", "quantifier": "every project", "why_tests_cant": "completeness of a lint", "anchors": ["artifact-data/src/project.rs: lint_artifact_done_subnames", "artifact-data/src/artifact.rs: determine_impls"]}
{"id": "C45", "title": "Repository discovery", "statement": "Starting in a directory, the tool uses the nearest ancestor (itself included) that contains .art, and fails exactly when there is none; it always terminates.", "quantifier": "every directory depth and layout", "why_tests_cant": "unbounded depth", "anchors": ["artifact-app/src/dev_prelude.rs: find_repo"]}
{"id": "C46", "title": "Formatting keeps every artifact", "statement": "After a successful no-op modification (art fmt), re-reading the disk yields the same artifacts, under the round trip conditions of the file formats; files that defined no artifact are not kept (proved).", "quantifier": "every project", "why_tests_cant": "end-to-end state property over all projects", "anchors": ["artifact-data/src/modify.rs: modify_project, save_project", "artifact-app/src/fmt.rs: run"]}
{"id": "C47", "title": "URL routing", "statement": "Every hash string routes to exactly one view; the hash produced for an artifact or an edit routes back to that artifact or edit; a hash containing no name and no edit number routes to not-found, never a panic.", "quantifier": "every hash string", "why_tests_cant": "infinite strings, unanchored regexes", "anchors": ["artifact-frontend/src/view.rs: View::from_hash", "artifact-frontend/src/dev_prelude.rs: hash_edit"]}
{"id": "C48", "title": "Adding an implementation never lowers spc completion", "statement": "Adding a code location for an existing unimplemented slot, or implementing more subnames, never lowers any artifact's spc completion; the analogous statement for tst fails for artifacts with tst subnames and is proved false.", "quantifier": "every acyclic project and every added location", "why_tests_cant": "monotonicity over all graphs", "anchors": ["artifact-lib/src/lib.rs: Impl::to_statistics", "artifact-data/src/graph.rs: determine_completed"]}
{"id": "C49", "title": "A save only touches artifact files", "statement": "A modification creates, changes or removes only artifact files under the configured paths, their backup names, other files with the backup extension under those paths, and the files of the resulting artifacts; it neither makes nor removes directories.", "quantifier": "every disk, project and schedule", "why_tests_cant": "frame condition over all files", "anchors": ["artifact-data/src/modify.rs: create_backups, save_project, remove_backups"]}
{"id": "C50", "title": "Modify error kinds survive the wire", "statement": "Error kinds and API methods convert to text and back unchanged, and unknown texts are rejected.", "quantifier": "every string", "why_tests_cant": "unknown strings are infinite", "anchors": ["artifact-ser/src/lib.rs: ModifyErrorKind, Method"]}
{"id": "C51", "title": "Paths of the settings file stay inside the project", "statement": "A path of the settings file without `..` always resolves to a path inside the project directory; `x`, `/x` and `{repo}/x` resolve to the same path; a path climbing above the root directory panics (proved).", "quantifier": "every project directory and every path text", "why_tests_cant": "path texts are unbounded", "anchors": ["artifact-data/src/settings.rs: resolve_raw_paths"]}
{"id": "C52", "title": "An interrupt never cuts off a write", "statement": "The server ends after an interrupt only when no request has the mutex: every request that got it has been finished, and nothing happens after the end.", "quantifier": "every history of concurrent requests with an interrupt at any moment", "why_tests_cant": "the moment of the interrupt and the interleaving of threads are unbounded", "anchors": ["artifact-app/src/serve/handler.rs: start_api", "artifact-app/src/serve/mod.rs: LOCKED"]}
{"id": "C53", "title": "From the form to the disk: no lost update", "statement": "For any number of web pages and other programs talking to one server: what a page sends is read unchanged by the server and what the server sends is read unchanged by the page; a form that was removed by an answer was saved, that is the server performed exactly the operation the form said, on the disk; if the form was opened on an artifact, that artifact was on the disk unchanged at that moment and exactly it was replaced; a second page that still has the old version is refused; saving an untouched form changes nothing (except that an empty `done` is lost, proved).", "quantifier": "every history of the system: pages, clicks, keystrokes, requests, lost requests, answers, threads of the server, crashes, edits of the disk by others", "why_tests_cant": "a test runs one page against one server in one order; conflicts need particular interleavings of several pages and threads", "anchors": ["artifact-frontend/src/fetch.rs", "artifact-frontend/src/dev_prelude.rs: ArtifactEdit", "artifact-frontend/src/edit.rs", "artifact-app/src/serve/handler.rs", "artifact-ser/src/ser.rs", "artifact-data/src/modify.rs"]}
{"id": "C54", "title": "The graphs show exactly the links of the project", "statement": "For a project that was read: the graph on the page of an artifact shows the artifact, highlighted, exactly the artifacts it is a part of and its parts, and exactly the arrows between it and them; the graph of a search has exactly the arrows of which one end is selected, each once, and exactly the selected artifacts (highlighted, once) and those at the other ends; a name without an artifact is drawn as not found, every other node in the colour of its state and with a link that opens its page; drawing never panics.", "quantifier": "every project that was read, every filter, every order in which the hash tables give their entries", "why_tests_cant": "the order of the hash tables is random and the projects are unbounded; a test compares one picture", "anchors": ["artifact-ser/src/md_graph.rs: artifact_part_dot, name_dot, wrap_dot", "artifact-frontend/src/graph.rs: graph_html_results", "artifact-frontend/src/view.rs: View::from_hash"]}
{"id": "C55", "title": "The exported document shows the project", "statement": "A text has exactly one division into plain characters, introduced subnames, references and graphs, and the references found are those that the checks see. What is shown for a text is what is to be shown for each piece in order: a reference is a link in the colour of the artifact if artifact and subname exist and is marked as not found otherwise, the marked ones being exactly those the checks warn about; a subname is blue with its place in the code if it is implemented and red otherwise; in graphs they become nodes. The document is header, table of contents (no entry leads nowhere) and one section for each artifact with its relatives, file, implementation and text. It can be made exactly if every place in it has an address, which, for a project with artifacts and a pattern that works alike for all places, is the case exactly if the checks report no error in the settings. The command changes only the file it was asked to write, and nothing if it fails; if it crashes the file holds the sections before the one that crashed.", "quantifier": "every text, every project that was read, all export settings, every disk and destination", "why_tests_cant": "texts, projects and settings are unbounded; a test compares a few documents", "anchors": ["artifact-ser/src/markdown.rs: to_markdown, replace_markdown, name_markdown, html_code_url", "artifact-ser/src/md_graph.rs: subname_dot, fullname_dot", "artifact-app/src/export.rs: export_markdown, run"]}
{"id": "C56", "title": "Starting a project", "statement": "`art init` in a directory succeeds exactly if the directory exists, has no `.art`, `design` is not a file and `design/purpose.md` is not a directory. It then makes `.art` with the default settings and `design/purpose.md` with one requirement; at every moment, also if the process is killed, everything else on the disk is as before, nothing has been removed and the disk is a tree. If the directory is missing or has a `.art` nothing is changed. Afterwards every command started in the directory, or below it where no other project is nearer, finds the new project; if `design` held no other artifact file, reading it always gives exactly the one unimplemented requirement without any message, so `art check` always succeeds. (In the code: an existing `design/purpose.md` is replaced without a copy, and an `art init` that failed or was killed after its first action can never be repeated.)", "quantifier": "every directory tree, every directory, every moment at which the process may be killed, every order in which threads deliver", "why_tests_cant": "directory trees and moments of failure are unbounded", "anchors": ["artifact-app/src/init.rs: run", "artifact-app/src/data/settings.toml", "artifact-app/src/data/purpose.md", "artifact-app/src/dev_prelude.rs: work_dir!, find_repo"]}
{"id": "C57", "title": "What is saved is formatted", "statement": "If `art fmt` succeeds after a successful modification of the project (in particular after an `art fmt`), it leaves every file and every directory as it is, except for backup files. After `art fmt` the artifact files are exactly the files of the artifacts, and the conditions under which saving is safe hold again. If `art fmt` succeeds, the exit status of `art check` in any directory that belongs to the project is the same before and after, and it is 0 or 2. The conditions are those of C46.", "quantifier": "every project and directory tree that meet the conditions of C46, every order in which threads read and write", "why_tests_cant": "projects, directory trees and schedules are unbounded", "anchors": ["artifact-app/src/fmt.rs: run", "artifact-data/src/modify.rs: modify_project, save_project, create_backups, remove_backups", "artifact-data/src/raw.rs: to_markdown, from_markdown", "artifact-app/src/check.rs: run"]}
{"id": "C58", "title": "Completion in floating point is off by at most one in the third decimal", "statement": "The program computes completion in f64 and shows it as f32. For every project, however large up to 2^42 slots, every number shown is the f32 next to a whole number of thousandths that differs by at most one from the true ratio rounded to thousandths, and is that number unless the true ratio is within an explicit error (about slots times 2^-53) of the middle between two thousandths. A true ratio of 1 is shown as exactly 1, of 0 as exactly 0, and no number is outside 0..1. Colours and printed percentages are exactly those that belong to the number of thousandths. Two loads of the same artifacts in different orders show numbers that differ by at most one thousandth; they can really differ (a project with four artifacts is shown as 68.7% or 68.8% depending on the order in which its artifacts arrive).", "quantifier": "every project, every topological order, every order of arrival, every number of thousandths", "why_tests_cant": "the error depends on the order of a sum over an unbounded graph; the order comes from threads and is almost always harmless", "anchors": ["artifact-data/src/graph.rs: determine_completed, round_ratio", "artifact-lib/src/lib.rs: Impl::to_statistics", "artifact-ser/src/lib.rs: Completed::spc_points, tst_points"]}
{"id": "C59", "title": "The web page shows its state and its controls do what they say", "statement": "In every history of the page (clicks and typing on what is on the screen, changed addresses, responses) the screen is a picture of the present project, edits, place and search patterns; only the newest messages can be missing, and only after sync, or after save while a request is on its way. The links on the screen are exactly the open edits and artifacts whose names match the patterns, in order, and following one leads to what it names and changes nothing else. Typing into a field changes the content of this field and of no other. Closing a message removes it and no other. The edit button opens a form with the present content of the artifact shown. If everything can be drawn, no control on the screen breaks the page except save with a field that is not a name and cancel with a name that cannot be routed, and every artifact and open edit can be reached in at most three steps from every page.", "quantifier": "every history of clicks, keystrokes, addresses and responses, every project, every way to draw texts and graphs, every pattern", "why_tests_cant": "Histories are unbounded and interleave with responses; the frontend has no tests of its views, and a test can only look at chosen screens.", "anchors": ["artifact-frontend/src/main.rs:71-166", "artifact-frontend/src/nav.rs:20-229", "artifact-frontend/src/artifact.rs:21-76", "artifact-frontend/src/edit.rs:66-204", "artifact-frontend/src/graph.rs:31-51", "artifact-frontend/src/fetch.rs:63-96"]}
{"id": "C60", "title": "What the web page draws for texts and graphs, and when drawing breaks it", "statement": "For a project that could be read, the web page shows a text as its pieces in order: references as links with the colour of their artifact or marked as not found, subnames with the place of their implementation, and every graph between fences as the drawing that graphviz makes of its text with nodes for the references in it (as long as no line in the graph begins with a fence that goes on with a reference, and places have no line breaks); everything else is passed to markdown unchanged. The graph beside an artifact is a drawing of it and its neighbours, the graph of a search one of the artifacts selected and their neighbours. A control on the screen breaks the page exactly if it does so before anything is drawn (C59) or if what it leads to cannot be drawn; a text cannot be drawn exactly if one of its subnames is implemented at a place without an address, if a name in it makes the reader of names panic, or if the browser does not see exactly one node in its HTML. For a browser that accepts all HTML and a project without addresses, only the letter U+017F in a form does this.", "quantifier": "every project that can be read, every text stored or typed, every history of the page, every behaviour of graphviz, markdown and the HTML reader", "why_tests_cant": "Texts are arbitrary and are searched twice with regular expressions whose matches overlap; the frontend has no tests for its drawing.", "anchors": ["artifact-frontend/src/view.rs:28-32", "artifact-frontend/src/view.rs:66-113", "artifact-frontend/src/graph.rs:24-136", "artifact-frontend/src/artifact.rs:79-150", "artifact-frontend/src/name.rs:3-7", "artifact-ser/src/markdown.rs:189-315"]}
{"id": "C61", "title": "What art ls prints", "statement": "For a project that could be read and a selection that is accepted, art ls prints a table with a line of bold titles and one line for every selected artifact, whose cells stand under the titles of the fields they show: the two ratios in percent with one decimal, exactly, in the colour of their band; the name in the colour of the state; the names of the linked artifacts as these artifacts spell them and in their colours, in italics if there is no such artifact; the subnames in green if there is code for them and in red if not; the file; the implementation; the first thirty characters of the text with line ends written as \\n. With --long it prints for each artifact the lines of the fields that are wanted, in a fixed order. --plain changes the styles and nothing else. Nothing of this panics. No line of the table is broken unless the path of a file or the description of an implementation has a line end.", "quantifier": "every project that can be read, every selection of artifacts and fields, table and long form, with and without --plain", "why_tests_cant": "The output depends on the whole project, on the colours of other artifacts and on every combination of seven flags; the tests compare the output of a few commands for one project.", "anchors": ["artifact-app/src/ls.rs:128-165", "artifact-app/src/ls.rs:215-258", "artifact-app/src/ls.rs:420-612", "artifact-lib/src/lib.rs:197-223"]}
{"id": "C62", "title": "JSON artifact files, character by character", "statement": "A JSON file is accepted exactly if its text is a JSON text of the grammar of RFC 8259, nested at most 127 deep, whose value is an object of artifacts; a text has at most one value, so there is only one reading. What is written for a value, on one line or indented, is a JSON text of that value, has no control character on the single line, and is read back as the value; different values have different texts. A file of artifacts that was written is read back with the same artifacts for all texts, so for projects kept in JSON files saving then reading (C46) and formatting need no assumption about a library. Fields of an artifact that are not known are ignored, and so they are lost when the project is formatted.", "quantifier": "every text, every JSON value, every list of artifacts, every project whose artifacts are in JSON files", "why_tests_cant": "Texts of artifacts are arbitrary strings that have to survive quoting; the tests write and read a few samples without characters that need an escape.", "anchors": ["artifact-data/src/raw.rs:175-200", "artifact-data/src/modify.rs:355-370"]}
{"id": "C63", "title": "What is sent is what arrives: projects, calls and answers as JSON texts", "statement": "The server takes the text of every call of the page for exactly that call with its number, and calls with the same text are the same. Whatever a running server answers, the page can read the text: an answer with a project becomes that project with the number of the call (settings, export settings, code locations and all fields of all artifacts, up to the order of maps), every other answer becomes an error that is shown. `Project::to_ser` and `initial.json` give back the project that was read exactly, `art ls --type json` prints exactly the selected artifacts, and the text shown for lints determines the lints. The lints of a project that was saved never reach the page, and settings without the part `export` get no table of contents while settings with an empty one do. Of several entries with one key in the text of a call the last one counts.", "quantifier": "every call, every history of a server that was started on any directory tree, every project that can be read, every list of names, all lints", "why_tests_cant": "Names, texts, paths and messages are arbitrary strings that pass through two levels of JSON, through sorted maps and back into insertion ordered ones; the tests send two or three fixed projects.", "anchors": ["artifact-ser/src/ser.rs:24-238", "artifact-ser/src/lib.rs:60-281", "artifact-ser/src/lint.rs:25-122", "artifact-lib/src/lib.rs:47-124", "artifact-lib/src/lib.rs:296-412", "artifact-app/src/serve/handler.rs:74-207", "artifact-frontend/src/fetch.rs:22-188", "artifact-app/src/ls.rs:143-147"]}
{"id": "C64", "title": "Looking for files while they are renamed and removed", "statement": "The thread that walks the artifact paths runs while other threads rename or remove the files it has found, in the same directories. If the artifact paths are directories of which none lies inside another, then every disk, phase and list of lints that can occur is one that occurs when the walk is complete before the first file is renamed or removed, and the other way round: no file is missed, none is found twice, no backup is taken for an artifact, and no walk ends in an error because a file vanished. So `modify_project` has the same results and leaves the same disks, and is as safe as if it walked first. If a path lies inside another this is false: whether saving succeeds depends on how fast the threads are.", "quantifier": "every directory tree, every set of artifact paths and excludes, every interleaving of the walk and the workers, every behaviour of a directory listing towards entries that appear or vanish while it is read, every failure and crash", "why_tests_cant": "The outcome depends on the schedule of the threads and on what the operating system shows of a directory that changes while it is read; a test sees one schedule, usually on three files.", "anchors": ["artifact-data/src/modify.rs:233-315", "artifact-data/src/settings.rs:79-145", "artifact-data/src/modify.rs:79-87"]}
{"id": "C65", "title": "The threads that read a project end, never block each other and lose nothing but what comes after the last dead worker", "statement": "Reading a project starts a walk, workers and a collector for the code and for the artifacts, and one collector of lints, connected by channels of bounded length. However the threads are scheduled, all of them end after finitely many steps and at no moment do they all wait for each other. When they are over, the collectors have received, in some order, exactly what the files give that come before and including the one on which the last worker of that kind dies: all files if fewer than 4 (code) or `num_cpus` (artifacts) files make a worker panic. Two executions therefore receive the same up to the order, and every execution in which a worker of each kind survives is one of those that the theorems about reading (C20 and others) speak about. If four source files make the scanner panic, the references in all files behind them are not found, without any lint.", "quantifier": "every directory tree, settings, number of processors, and every interleaving of the steps of the threads, each with its own speed", "why_tests_cant": "A deadlock or a lost message depends on the schedule, on full queues (more than 128 messages) and on several workers that panic; tests read a few small files on one schedule.", "anchors": ["artifact-data/src/project.rs:84-182", "artifact-data/src/settings.rs:79-145", "artifact-data/src/implemented.rs:27-96", "artifact-data/src/raw.rs:162-200"]}
{"id": "C66", "title": "The threads that write a project, and when they block for ever", "statement": "Making backups and removing them always ends, never blocks, handles each file that the walk finds exactly once, and goes on only when no worker is at work any more and all lints have arrived. Writing the files has the same properties if and only if it is not the case that, among the first files, so many cannot be written that their lints fill the queue (128) and the hands of all workers while more than 128 files follow. If that is the case then, however the threads are scheduled, the main thread waits for ever for room in the queue of files, because it takes no lint before all files are sent. A full disk and a project with more than 256 plus `num_cpus` files are enough; up to that number of files writing always returns.", "quantifier": "every list of files with every combination of failures, every number of processors and length of the queues, every interleaving of the steps of the threads", "why_tests_cant": "It takes hundreds of files that cannot be written at the same time; tests write a handful of files on a disk with room.", "anchors": ["artifact-data/src/modify.rs:233-315", "artifact-data/src/modify.rs:317-380"]}
{"id": "C67", "title": "The attributes in markdown files are YAML, and which `done` texts are kept", "statement": "For the part of YAML in which the attributes of artifacts are written (the keys `done` and `partof`, texts on one line that are plain or in single or double quotes, lists of such texts, comments, blank lines): the grammar gives every text at most one meaning. The text that yaml-rust writes for a `done` is a YAML text with that value exactly when it is put in quotes or has only printable characters. If the YAML library reads the texts of this grammar as they say, then artifacts written to markdown files are read back, a modified project is read back as it was returned and formatting changes nothing, as soon as the texts of the artifacts are safe (C21) and each `done` is put in quotes or has only printable characters and does not end with white space; for `done` this is exact. Otherwise something is lost: without `partof`, white space at the end of `done` that yaml-rust does not quote (a no-break space, U+2028, ...) is gone after `art fmt`.", "quantifier": "every text, every `done`, every set of artifacts, every project in markdown files, whatever the library takes for a number", "why_tests_cant": "The conditions depend on single characters anywhere in a text out of all of Unicode; tests write `done` once or twice with letters.", "anchors": ["artifact-data/src/raw.rs:293-320", "artifact-data/src/raw.rs:386-427"]}
{"id": "C68", "title": "Artifact files and settings are TOML, and which texts are kept", "statement": "For the part of TOML in which artifact files and settings are written (tables, texts on one line in single or double quotes, lists of such texts, comments, blank lines): the grammar gives every text at most one meaning, and the reader accepts exactly its texts. What toml writes for artifacts says in TOML that they are these artifacts exactly when no text in it has U+001F or U+007F; otherwise what is written is no TOML at all and the whole file is lost. If the libraries read the texts of the grammars of C67 and C68 as they say, then formatting or modifying a project with markdown, TOML and JSON files and reading it again gives the project that was returned, with conditions only on the texts of the artifacts. The settings that `art init` writes are TOML for the settings of a new project; if `art init` is killed, what there is of the settings either cannot be read or is read as these settings.", "quantifier": "all texts, artifacts, settings, libraries that read the grammar, projects, schedules of the threads, and points in time at which `art init` is killed", "why_tests_cant": "Tests write and read some texts; the round trip is claimed for all texts and the loss for all that are left, and both are relative to a grammar that no test of this code states.", "anchors": ["artifact-data/src/raw.rs:182", "artifact-data/src/modify.rs:362", "artifact-data/src/settings.rs:27-77", "artifact-ser/src/lib.rs:66-78", "artifact-ser/src/lib.rs:170-223", "artifact-app/src/init.rs:37-69"]}
{"id": "C69", "title": "The regular expressions of the code are texts, and what they mean", "statement": "Each text from which the code makes a regular expression is accepted by a parser for such texts, and its matches, in their order of preference and with their groups and the names of the groups, are those of the tree that the rest of the model uses; for the lines with the names this holds with every prefix of the settings in the text. `replace_all` gives the same for every replacement, and the replacement is never asked about a match that is none of the three kinds. A search succeeds exactly if a part of the text is one that the expression stands for. `art ls` with a plain word, or with an escaped one, shows exactly the artifacts that have the word, without regard to case, in every searched field; with a pattern without option group case makes no difference at all; but a pattern that begins with a group without a number, `(?:`, is taken for an option, so that case matters there, while it does not on the pages.", "quantifier": "all texts that are searched, all prefixes, replacements, words and patterns, all projects, and all tables of characters that fold ASCII as Unicode does", "why_tests_cant": "The agreement of an expression in a text with what it is meant for, and independence of case, are claims about all texts and all patterns.", "anchors": ["artifact-ser/src/name.rs:154-210", "artifact-data/src/implemented.rs:29-41", "artifact-ser/src/markdown.rs:16-46", "artifact-data/src/raw.rs:152-157", "artifact-data/src/raw.rs:209-211", "artifact-frontend/src/view.rs:24-29", "artifact-lib/src/lib.rs:44", "artifact-app/src/ls.rs:166-213", "artifact-frontend/src/dev_prelude.rs:493-508"]}
{"id": "C70", "title": "What a command line means", "statement": "The words after `art` run a command exactly if there are none (or just `--`, which ends with the message about a missing sub-command) or they are the name of a sub-command followed by words that write a list of parts (flags, options with values, arguments) in one of the accepted ways, where no option is repeated that cannot be, numbers are numbers below 2^64, and there are as many arguments as the sub-command takes; and the command then has exactly the settings that the parts say, with the documented defaults. A line of declared parts that do not fit is refused. Neither the order of the parts nor the way they are written matters, except the order of the arguments. The arm for an unknown sub-command is never reached. `-h`, `--help`, `-V` and `--version` as the first word, or the first after a sub-command, print something and end with 0, whatever follows. `-v`, whose help says to pass it many times, takes a number and is refused when repeated, except with `serve`, which counts it.", "quantifier": "all lists of words", "why_tests_cant": "The order of options, the ways to write them, and the words that are refused are unbounded; tests fix a few command lines.", "anchors": ["artifact-app/src/lib.rs:60-96", "artifact-app/src/init.rs:12-39", "artifact-app/src/check.rs:17-33", "artifact-app/src/fmt.rs:15-34", "artifact-app/src/ls.rs:20-127", "artifact-app/src/serve/mod.rs:20-44", "artifact-app/src/export.rs:25-64"]}
{"id": "C71", "title": "The whole program: what a command line does to the disk, and the exported web page", "statement": "From the words of the command line, the current directory and the disk to the exit status and the disk afterwards: the status is 0, 1 or 101, or 2 for `art check` with warnings; a line that is refused ends with 1 and changes nothing; outside a project every command but `init` ends with 1 and changes nothing, and with a work directory that is not a directory `init` too; `check` and `ls` never change anything, `init` only the four paths of a new project, `fmt` only artifact files and backups, `export md` only the file that was asked for and `export html` only the directory that was asked for and the files of the page in it, whether they succeed or fail; the `--type` of `fmt` has no effect. `art export html` succeeds exactly if the project can be read and nothing in the directory is in the way of the page; then all files of the page are there, nothing else has changed, and a page that reads `initial.json` shows exactly the project that was read. It can be exported again. On a host that has only these files the page shows that project from the moment it has read the file, whatever the user does and however the host answers, and never asks the host to read.", "quantifier": "all lists of words, disks, directories, pages (lists of files), projects, exit codes, and all histories of the exported page", "why_tests_cant": "The claims are about every command line, every disk and all histories of a page; the frame claims are about every path that is not mentioned.", "anchors": ["artifact-app/src/bin/art.rs:4-12", "artifact-app/src/lib.rs:60-96", "artifact-app/src/dev_prelude.rs:27-32", "artifact-app/src/export.rs:66-141", "artifact-app/src/frontend.rs:23-42", "artifact-app/src/fmt.rs:36-46", "artifact-app/src/init.rs:41-69", "artifact-app/src/check.rs:35-49", "artifact-app/src/ls.rs:129-164", "artifact-app/src/serve/mod.rs:46-63", "artifact-frontend/src/fetch.rs:33-86", "artifact-frontend/src/main.rs:46-129"]}
{"id": "C72", "title": "One command after the other", "statement": "What a command reads from a project depends only on the settings file and on what is in the artifact and code paths. Every command but `serve` leaves the disk a tree. A command that may not touch these paths does not change what is read. In every sequence of such commands, of successful `art fmt`s of the project and of changes by other programs elsewhere, in any order: the settings stay the same, the project stays the same up to the spelling of names, the conditions under which saving is safe stay true, `art check` ends with the same status before and after, and after the first `art fmt` no file of the project changes any more except backups. The restriction is needed: a document that `art export md` writes into a code path implements the artifacts of its table of contents, and one that is written into an artifact path makes the project unreadable.", "quantifier": "all disks, settings, projects that survive writing and reading (C46), current directories, commands with their options, and all finite sequences of commands and foreign changes", "why_tests_cant": "The claims are about all sequences of commands of any length, with other programs in between; a test runs one.", "anchors": ["artifact-app/src/fmt.rs:39", "artifact-app/src/export.rs:117", "artifact-app/src/check.rs:35", "artifact-app/src/init.rs:41", "artifact-data/src/project.rs:43", "artifact-data/src/modify.rs:16"]}
{"id": "C73", "title": "The archive with the web page", "statement": "The build script packs the directory with the web page into a tar archive that becomes part of the program, and `art serve` and `art export html` unpack it. Whatever is packed can be unpacked: every file that comes out was in the directory at this path with these bytes, and none comes out twice or where another needs a directory. The build fails exactly if a file directly in the directory has a name of more than 100 bytes. The page is complete exactly if no path has more than 100 bytes. A file is missing only if a directory above it has a file with too long a path; then the build succeeds all the same and other files of that directory can be missing too. With a complete archive `art export html` writes every file of the directory, byte for byte, except for `initial.json`, and nothing else. If one byte of a header in the archive is changed, other than in the sum of the header itself, then nothing is unpacked, whatever comes before; a change in the bytes of a file is not noticed.", "quantifier": "all directory trees with files of any bytes (below 8 GiB) in any order of listing, all disks and directories to export to", "why_tests_cant": "The claims are about every tree, every length of paths and files, and all bytes; the failure that is ignored needs a page that no one has built yet.", "anchors": ["artifact-app/build.rs:94", "artifact-app/build.rs:113", "artifact-app/build.rs:122", "artifact-app/src/frontend.rs:26"]}
{"id": "C74", "title": "The life of a project: the disk holds what the server shows", "statement": "At every time in the life of a server the disk holds the project that the server shows: whoever reads the project then, on any number of threads, gets this project up to the spelling of names, and saving is still safe. Every answer with a project is the project on the disk at that time. So a restart cannot be noticed: a server that is started afterwards shows what the first one showed last. Over a whole life of a project, made of any number of runs of `art serve` with any requests, successful `art fmt`s, commands that do not touch the project and changes by other programs elsewhere, in any order, the disk holds what was saved last. Two conditions are needed: what is saved can be stored (its artifacts survive being written, no two files differ only in the extension, no reference crashes the parser), and no modification fails while it writes (C36 has what happens otherwise).", "quantifier": "all disks, projects, settings with separate paths, numbers of threads, requests, interleavings of requests, histories of servers, and all finite sequences of commands, servers and foreign changes", "why_tests_cant": "The claim is an invariant over all histories of concurrent requests and all sequences of commands and restarts; a test follows one history.", "anchors": ["artifact-app/src/serve/handler.rs:77", "artifact-app/src/serve/handler.rs:174", "artifact-app/src/serve/mod.rs:46", "artifact-data/src/modify.rs:16", "artifact-data/src/project.rs:43", "artifact-app/src/fmt.rs:39"]}
{"id": "C75", "title": "Addresses of places in the code", "statement": "A pattern for addresses (`code_url`) is a row of characters, doubled braces and the fields `{file}` and `{line}`, with or without a format; the address of a place is what stands for these parts, one after the other, and any other pattern is refused. Whether a pattern is refused does not depend on the place, so the one made-up place that the checks try tells about all places: the export of a project with artifacts crashes exactly if the checks report an error in the settings, and without such an error the whole document is written and every subname in the web page has an address. In a usual pattern, with something that is no digit between file and line, two places within the project with the same address are the same; without it, or with a file beside the project whose path begins like the project, they need not be. Every character of an address is from the pattern, the file or the line, so addresses fit on one line if these do. Nothing is escaped: for every usual pattern there are files whose name ends the link in the exported page and adds attributes to it.", "quantifier": "all patterns, files, lines, formats, projects that can be read, and settings of the export", "why_tests_cant": "The set of patterns is infinite and the claim that one try tells about all places is about all places at once; a test tries some patterns for some places.", "anchors": ["artifact-ser/src/markdown.rs:318", "artifact-ser/src/markdown.rs:341", "artifact-ser/src/markdown.rs:364", "artifact-data/src/project.rs:318"]}
{"id": "C76", "title": "Who can talk to the server", "statement": "A request is a call of the server exactly if its path belongs to the route, its verb is GET, POST or PUT and its body is the UTF-8 bytes of a text; the text alone decides which call it is. Neither the verb nor the headers matter, so neither does the origin of the page that sends it. All other requests, and requests without a body, change nothing. Every answer at the route allows all origins to read it, and its status tells only whether the body was text. When browsers ask, whatever the origin, exactly six verbs (of which PATCH and DELETE have no route) and, beside harmless headers, Content-Type and X-Requested-With are agreed to. So whatever the own page can ask of the server, a page of any origin can ask with a request that browsers send without asking, and read the answer: at any time in the life of a server it can read the whole project with the ids of all artifacts, do to it whatever can be done, and with one request that needs no knowledge of the project stop the server for good.", "quantifier": "all requests, origins, texts, servers and their histories, and all paths that the HTTP library takes for the route", "why_tests_cant": "A claim about all requests of all pages at any time of any history; a test sends some requests to a server in one state.", "anchors": ["artifact-app/src/serve/handler.rs:38", "artifact-app/src/serve/handler.rs:175", "artifact-app/src/serve/handler.rs:228", "artifact-app/src/serve/handler.rs:248"]}
{"id": "C77", "title": "What the settings file says", "statement": "Exactly the texts of the grammar (TOML with texts, lists of texts, truth values and nested tables) that obey the rules of TOML and whose fields have the right kinds are settings, and they say exactly what the specification says field by field; no text says two things. Only the known fields count: files that agree on them say the same, and a line with a misspelt key changes nothing and is never reported. There is a table of contents in exported documents exactly if the file has the table `export`, or a table in it, and does not say `md_toc = false` there: writing only the header `[export]` at the end of any file without it turns the table of contents on and changes nothing else, so a new project has none. When `art export md` succeeds, the document has the header, the contents, and the way of writing names that the settings file of the project says.", "quantifier": "all texts, all documents that agree on the known fields, all places for a line, all projects and disks", "why_tests_cant": "A claim about all texts; tests load some settings files, and none looks at what is not read.", "anchors": ["artifact-data/src/settings.rs:28", "artifact-data/src/settings.rs:73", "artifact-ser/src/lib.rs:66", "artifact-ser/src/lib.rs:82", "artifact-ser/src/lib.rs:111", "artifact-ser/src/lib.rs:150", "artifact-app/src/export.rs:76"]}
{"id": "C78", "title": "Where links within an exported document lead", "statement": "In an exported document, a link in a text (outside of graphs) or in the table of contents leads to the section about its artifact and to no other if the program that shows the document marks headings in capitals, and to no section if it marks them in small letters; for links in graphs it is the other way round. So when an artifact is linked from both, no rule at all for marking headings makes both links lead to its section.", "quantifier": "all files and settings from which a project can be read, all export settings for which the document can be made, all references, all rules for marks of headings", "why_tests_cant": "the claim that no rule works is about all functions from headings to marks; that each link leads to one section only is about all projects; no test of the repository follows a link", "anchors": ["artifact-ser/src/markdown.rs:265-315", "artifact-ser/src/markdown.rs:380-405", "artifact-ser/src/md_graph.rs:120-172"]}
{"id": "C79", "title": "What the completion of an artifact depends on", "statement": "In projects without cycles, read from any two disks, two artifacts have the same completion if everything below them can be paired: same type, same things of their own (done, referenced from code, number of implemented and not implemented subnames, tests or not), parts paired one by one. Names, texts, files, ids and places in the code do not matter. So a change anywhere in a project leaves the completion of every artifact alone that has nothing changed below it before or after; and moving artifacts and implementations to other files or rewriting texts changes no completion, also with cycles. With a cycle anywhere everything is at zero, so there locality ends.", "quantifier": "all pairs of disks and settings from which projects can be read, all schedules of reading, all artifacts, all relations that pair artifacts", "why_tests_cant": "a claim about all pairs of projects; tests compute completion for fixed projects and never compare two", "anchors": ["artifact-data/src/graph.rs:36-183", "artifact-data/src/artifact.rs:37-167", "artifact-data/src/implemented.rs:105-175", "artifact-lib/src/lib.rs:77-84"]}
{"id": "C80", "title": "Every edit can be taken back", "statement": "For a batch of operations that was accepted and saved there is a batch that takes it back: delete what was created, create what was deleted, change back what was changed, presenting the ids that the project shows. If the saved project can be stored, the second batch, in any order, is accepted, and project and disk are as before; it can only fail where the disk fails. In particular a successful change never leads to a disk on which the next request is refused for what was loaded. This needs that no artifact path lies inside an excluded path and that no update makes an artifact equal to another one; without either it is false.", "quantifier": "all disks and settings that hold a project, all accepted batches, all batches that take them back in any order, all libraries and ids without collision, all schedules of both runs", "why_tests_cant": "a claim about all pairs of batches and what the second one finds on the disk the first one wrote; tests run single batches on fixed projects", "anchors": ["artifact-data/src/modify.rs:25-92", "artifact-data/src/modify.rs:94-149", "artifact-data/src/modify.rs:151-231", "artifact-data/src/modify.rs:233-330"]}
{"id": "C81", "title": "One batch or two, in either order", "statement": "After a batch that was saved, a second batch that is about other artifacts is answered exactly as both would be in one batch: accepted if and only if both together are, with the same project, and otherwise refused for the same kind of reason. So two people who change different artifacts, each in a way that would be saved alone, may send their changes in either order: the second one is accepted in both orders or in neither, and project and disk are the same at the end. For batches about the same artifact this is false: two steps may be accepted where one batch is refused.", "quantifier": "all disks and settings that hold a project, all pairs of batches that are about different ids, all libraries and ids without collision, all schedules of all runs", "why_tests_cant": "a claim that compares three or four runs on different disks for all pairs of batches; tests look at one batch", "anchors": ["artifact-data/src/modify.rs:25-92", "artifact-data/src/modify.rs:94-231", "artifact-data/src/modify.rs:233-330", "artifact-data/src/project.rs:84-182"]}
{"id": "C82", "title": "The threads that write a project, their channels and the disk", "statement": "Whatever the threads of create_backups, save_project and remove_backups do, at whatever speed, with channels of 128 places, leaves a disk and gives lints that the phases without channels allow, so all guarantees about interrupted and failing modifications hold for the threads. If the process dies while files are written, all artifact files had been renamed, files were begun in their order, and at most one for each processor is neither complete nor reported. The threads can always go on if there are at most 256 files and one for each processor; with one file more, a disk that is full makes it possible that modify_project never returns, with all artifact files renamed.", "quantifier": "all disks, settings, projects, numbers of processors, failures and interleavings of the threads, at every moment", "why_tests_cant": "the interleavings of threads cannot be chosen in a test, nor the moment of death; a test with a full disk and hundreds of files does not exist", "anchors": ["artifact-data/src/modify.rs:233-272", "artifact-data/src/modify.rs:274-316", "artifact-data/src/modify.rs:318-380", "artifact-data/src/settings.rs:79-148"]}
{"id": "C83", "title": "Everything that a project is told", "statement": "The lints of a project that was read are exactly the complaints of a small list: parts that do not exist or whose types do not fit, texts that cannot be written as markdown, done artifacts with subnames, a bad code url, references in texts and in code that lead nowhere or to an artifact that is done; each appears once, the errors and the warnings in order. Two projects with the same code have the same warnings except for reasons that lie in an artifact that only one of them has. After a saved batch the project therefore gains and loses warnings only because of artifacts that were changed, and a batch that only creates artifacts brings no warning about a place in the code that had none.", "quantifier": "all disks, settings, projects, batches and orders of the threads", "why_tests_cant": "that no other warning ever appears or disappears is a statement about all pairs of projects; the tests compare the lints of a few fixed projects", "anchors": ["artifact-data/src/project.rs:19-110", "artifact-data/src/project.rs:184-413", "artifact-data/src/modify.rs:16-60"]}
{"id": "C84", "title": "The bytes on the disk depend only on the artifacts", "statement": "Two series of saved batches that begin with the same disk and end with the same artifacts leave the same files with the same bytes and the same directories, whatever happened in between and however many batches there were. After the first saved batch, coming back to the same artifacts brings back the same bytes; so a batch that is taken back leaves no trace, and batches about different artifacts give the same bytes in either order, and joined in one. The first saved batch of a project that was not formatted changes files nobody touched.", "quantifier": "all disks, settings, series of batches of any length, orders of the threads", "why_tests_cant": "series of edits of any length that meet again are not enumerable; the tests compare single files after one edit", "anchors": ["artifact-data/src/modify.rs:16-60", "artifact-data/src/modify.rs:187-380", "artifact-data/src/raw.rs:349-430"]}
{"id": "C85", "title": "It does not matter in which files the artifacts are", "statement": "Two projects that have the same artifacts (names and links up to capitals, the same done fields and texts), in whatever files, formats and order, and the same known places in the code, show the same for every artifact: links, parts, completion, implementation, subnames and text. They are told the same errors and warnings, up to capitals and the files of the artifacts. A saved batch that only moves artifacts to other files or changes capitals therefore changes nothing else, in what is shown and in what is told.", "quantifier": "all projects, disks, layouts of artifacts in files, batches of moves, orders of the threads", "why_tests_cant": "all ways to distribute artifacts over files are not enumerable; the tests load fixed directories", "anchors": ["artifact-data/src/project.rs:40-134", "artifact-data/src/artifact.rs:53-167", "artifact-data/src/graph.rs:30-183", "artifact-data/src/modify.rs:16-60"]}
{"id": "C86", "title": "Several programs that change one project at the same time", "statement": "Any number of programs run modify_project on one project, their steps in any order, each of them killed at any time. The disk stays a tree, directories and settings stay as they are, and nothing changes but artifact files and backups. A program that is alone does what modify_project does. A program that has read the project before others saved theirs, and writes after them, leaves byte for byte what it would have left without them, so what they saved is lost and nobody is told. Protection against each other is missing: two programs that only format the project can both succeed and leave no artifact file and no backup; killed at a wrong moment they leave only empty files; a reader can be told, without an error, that there are no artifacts.", "quantifier": "all numbers of programs, batches, disks, orders of steps, moments of death; the failures by concrete runs", "why_tests_cant": "the orders of the steps of several processes cannot be enumerated or forced, and the tests run one process", "anchors": ["artifact-data/src/modify.rs:16-88", "artifact-data/src/modify.rs:230-375", "artifact-app/src/fmt.rs:30-46", "artifact-app/src/serve/handler.rs:129-170"]}
{"id": "C87", "title": "The sections of the exported document are those of the artifacts", "statement": "If a project is read without errors, the document is exported with the name prefix of the artifact files, and nothing inserted breaks a line (one-line done fields, file names and addresses, no # in graphs), then the lines of the document that the reader of artifact files takes for the beginning of an artifact are, after those of the header, exactly one for each artifact, in the order of the project, all different. No text, reference, link, table of contents or drawn graph adds one or hides one. Without these conditions it fails: a done field with newlines, or a reference after a comment in a graph, makes a section about an artifact that does not exist, in a project without errors or warnings.", "quantifier": "all projects, texts, settings of the export, and prefixes without an angle bracket; the failures by concrete projects", "why_tests_cant": "texts and their markup are unbounded; the tests compare a few documents", "anchors": ["artifact-ser/src/markdown.rs:79-141", "artifact-ser/src/markdown.rs:143-266", "artifact-ser/src/md_graph.rs:23-196", "artifact-data/src/project.rs:348-366", "artifact-data/src/raw.rs:150-160"]}
{"id": "C88", "title": "Getting back to a good disk after a crash", "statement": "On a sound disk without leftover backups, moving the backups back and removing the other artifact files gives the disk of before, byte for byte, after every error and after every crash that comes before the backups begin to be removed, and whenever all backups are still there. After every other crash everything new is written, so removing the backups gives the disk of after, which is the same for all runs of the batch. But nothing on the disk tells the two cases apart: two crashes with the same artifact files before can leave the same disk though no disk is right for both, so no procedure that sees only the disk, even with the list of the artifact files of before, always gets to the project of before or of after.", "quantifier": "all disks, batches, thread interleavings, crash points and errors; the impossibility for all procedures", "why_tests_cant": "crash points and interleavings cannot be enumerated, and that no procedure exists is a statement about all programs", "anchors": ["artifact-data/src/modify.rs:16-88", "artifact-data/src/modify.rs:230-375"]}
{"id": "C89", "title": "Files that are edited by hand while the server runs", "statement": "While art serve runs, the artifact files are edited by hand, so that the files hold another project than the server knows. Whatever the server is asked for then, in whatever order and by whatever number of requests: an artifact of the files is gone afterwards only if a successful request presented its id, and a new one was brought by a successful request, so what was written by hand is kept. The server goes on showing what it knew, and that only, until it answers a request to reload or to modify; from then on it shows what is in the files. A request that changes or deletes an artifact as it was before the hand edit is refused, and files and server stay as they are.", "quantifier": "all projects, hand edits that leave a readable project, histories of requests; that stale projects are shown by a concrete history", "why_tests_cant": "histories and edits are unbounded; the tests do not edit files while a server runs", "anchors": ["artifact-app/src/serve/handler.rs:77-170", "artifact-data/src/modify.rs:16-88", "artifact-data/src/modify.rs:188-230"]}
{"id": "C90", "title": "How far down the shown 100% and 0% can be trusted, and what code for one artifact is worth above it", "statement": "On a way from an artifact a down to an artifact b below it, let w be the product of the numbers of things (own slots and parts that count) that are averaged for the artifacts passed. Then b's true completion divided by w is contained in that of a, and what b lacks divided by w is missing there. If a is shown at 100% and w times the number of things averaged for b is less than 2000, then b has something to implement and all its own slots are implemented; with exactly 2000 this is false. If a is shown at 0% in a project without cycles and the product is at most 2000, then no own slot of b is implemented; with 2001 this is false. When code references change for b only and b's true completion does not fall, then no artifact falls, none rises by more than b, and every artifact above b rises by at least b's rise divided by w.", "quantifier": "all projects, code references, hash functions, topological orders, artifacts and ways of any length between them", "why_tests_cant": "ways and numbers of slots are unbounded, and the limit is reached only by projects with ways of 2000", "anchors": ["artifact-data/src/graph.rs:74-163"]}
{"id": "C91", "title": "What a markdown file says, whoever wrote it", "statement": "Any text is cut into pieces in exactly one way: lines that start an artifact, lines of text, `###`, attribute blocks, and perhaps, at the end, an attribute block that is not closed. The pieces are something above the first artifact and one section for each artifact. Reading a markdown file succeeds exactly if every section is a text, possibly with attributes above `###` or in one block, whose attributes the YAML library reads, if the names are names and no two sections have the same one; and then it gives exactly the artifacts of the sections, in their order. What is above the first artifact never matters if its attribute blocks are closed. What follows an attribute block that is not closed never matters: neither texts nor artifacts nor mistakes, and nothing is reported; formatting then removes these artifacts from the disk.", "quantifier": "all texts, name prefixes and YAML libraries", "why_tests_cant": "texts are unbounded and the reader is a machine with several modes; the tests read a few well-formed files", "anchors": ["artifact-data/src/raw.rs:207-290", "artifact-data/src/raw.rs:300-338"]}
{"id": "C92", "title": "How far down the shown \"100% tested\" and \"0% tested\" can be trusted, and when new code cannot lower them", "statement": "On a way from an artifact a down to an artifact b below it (below a test through tests), let w be the product of the numbers of things (own tests and parts) averaged for the tested ratio of the artifacts passed. If a is shown as 100% tested and w times the number of things averaged for b is less than 2000, then b has tests of its own or parts, and all its own tests are written; with exactly 2000 this is false. If a is shown as 0% tested in a project without cycles and the product is at most 2000, no own test of b is written; with 2001 this is false. Adding code references, when an artifact that had no code gets code for all its `.tst-` subnames at once, lowers neither percentage of any artifact (without this condition it does, C48).", "quantifier": "every project, every way down, every set of added references", "why_tests_cant": "depth and width of projects are unbounded and the failures begin at 2000 averaged things", "anchors": ["artifact-data/src/graph.rs:100-163", "artifact-lib/src/lib.rs: Impl::to_statistics"]}
{"id": "C93", "title": "Markdown files can be joined, split and reordered, and artifacts moved between them", "statement": "If all attribute blocks of a text are closed and another text starts with an artifact, then the file made of the first, a newline and the second is read exactly if both texts are and they have no name in common, and then as the artifacts of the first followed by those of the second. A file made of parts (whole lines from the start of one artifact to the end of another, blocks closed) is read exactly if all parts are and no name is there twice; the same parts in another order are read as the same artifacts in another order; and parts distributed over two files in another way give the same artifacts in total. Both conditions are needed: without the first, joining two good files loses artifacts without an error; without the second, the title of one file becomes text of an artifact of the other.", "quantifier": "all texts, lists of parts, permutations, name prefixes and YAML libraries", "why_tests_cant": "texts, numbers of parts and orders are unbounded", "anchors": ["artifact-data/src/raw.rs:207-290"]}
{"id": "C94", "title": "Which mistake of a markdown file is reported", "statement": "Reading a markdown file fails exactly if one of its sections is wrong, and the failure is the one of the first section that is wrong: attributes given twice; otherwise attributes that cannot be read or are part of something that is not a name; otherwise a name that an earlier section of the file has. A heading itself is never the mistake, except that the program can end abnormally at it. Text after a wrong section never changes what is reported; text before it can change it only to a name that is there twice, and never makes the file readable.", "quantifier": "all texts, name prefixes, YAML libraries and failures, including the abnormal end", "why_tests_cant": "the number of sections, of mistakes in them and their order are unbounded, and a claim about which mistake is reported needs all combinations", "anchors": ["artifact-data/src/raw.rs:207-338"]}
{"id": "C95", "title": "When a change cannot lower a percentage", "statement": "The own slots of an artifact can be exchanged for others without lowering the average, whatever its parts are, exactly if no finished slot is lost and no unfinished one is gained. So for any two projects that can be read, with the same artifacts and links: if no artifact loses a finished slot or gains an unfinished one, no implemented percentage goes down, and no tested percentage if this also holds for the slots that count as tests; cycles included. Marking artifacts as done is such a change if they have no subnames or no code; with subnames that have code it can lower percentages, and the program then reports an error.", "quantifier": "all lists of slots and parts; all pairs of disks with projects that can be read", "why_tests_cant": "depth, number of parts and slots are unbounded, and the claim is about all pairs of projects", "anchors": ["artifact-lib/src/lib.rs: to_statistics", "artifact-data/src/graph.rs: determine_completed"]}
{"id": "C96", "title": "What new artifacts do to the percentages of the old ones", "statement": "A project gets new artifacts, and the old ones keep their links among each other (links to the new ones may come with the names). If the new artifacts that count for old ones are finished all the way down and no cycle is closed, no implemented percentage of an old artifact goes down; if they are also tested all the way down, no tested percentage does. If there is nothing yet for the new artifacts, all the way down, no percentage of an old artifact goes up, whether a cycle is closed or not. The old artifacts may be changed for the better, or for the worse, at the same time (C95). Read the other way round, this is what deleting artifacts does. Without the condition on cycles the first claim is false.", "quantifier": "all pairs of disks with projects that can be read, any number of new artifacts at any depth", "why_tests_cant": "number, depth and links of old and new artifacts are unbounded", "anchors": ["artifact-lib/src/lib.rs: to_statistics", "artifact-data/src/graph.rs: determine_completed", "artifact-ser/src/family.rs: auto_partofs"]}
{"id": "C97", "title": "What people write in markdown files is what is shown", "statement": "In every project that could be read: for every markdown file that is found, whoever wrote it, the artifacts shown with this file are exactly those its lines stand for according to the grammar of C91, each with its name letter by letter, its done text, its text without white space at the end, and of the links written those that are not automatic, once each and sorted; or the first wrong section of the file (C94) ends the thread that reads it, and then nothing of the file is shown. A file with any other mistake is not in a project that could be read. Conversely every artifact shown comes from a file that is found, and if that is a markdown file, it stands there.", "quantifier": "all directory trees, settings, libraries, hash functions, numbers of processors, schedules and results of a successful read, all markdown files and all artifacts shown", "why_tests_cant": "the claim joins a grammar over arbitrary texts with all schedules of the threads that read; a test has one text and one schedule", "anchors": ["artifact-data/src/raw.rs:162-338", "artifact-data/src/intermediate.rs:34-51", "artifact-data/src/project.rs:60-185", "artifact-lib/src/lib.rs:259-275"]}
{"id": "C98", "title": "What TOML and JSON files say, and what is lost in them", "statement": "A TOML or JSON document is read exactly if the name and the links of each entry are names; otherwise the first entry for which this is not so decides which error is reported, or that the thread ends. If it is read, then for each name, ignoring case, one artifact is read, spelled as in the first entry of that name and saying what the last one says, and nothing else: whenever two entries have the same name there are fewer artifacts than entries and nothing is reported, while a markdown file with the two is refused. In every project that could be read, the artifacts shown for such a file are exactly those, with text and links cleaned as in C97; or the thread that read it ended and nothing of the file is shown.", "quantifier": "all documents, all directory trees, settings, libraries, numbers of processors, schedules and results of a successful read", "why_tests_cant": "documents have any number of entries in any order with any spelling; tests try a few documents", "anchors": ["artifact-data/src/raw.rs:36-85", "artifact-data/src/raw.rs:162-200", "artifact-data/src/raw_names.rs:102-139", "artifact-data/src/intermediate.rs:34-51"]}
{"id": "C99", "title": "What is shown as implemented is what the code refers to", "statement": "In every project that could be read, an artifact that is not marked as done is shown with exactly the places at which the source files that are found refer to it or to its subnames, outside of all regions that are skipped and before any reference in the same file that ends the thread that reads it; each with its file and line. It is shown as not implemented exactly if there is no such place, and there is never more than one place for an artifact or for one of its subnames. In an exported document a subname is shown with that place.", "quantifier": "all directory trees, contents of source files, settings, libraries, numbers of processors, schedules and results of a successful read", "why_tests_cant": "the references are collected by several threads in any order from any number of files and then joined and sorted; tests try one file and one order", "anchors": ["artifact-data/src/implemented.rs:44-99", "artifact-data/src/implemented.rs:105-187", "artifact-data/src/project.rs:43-182"]}
{"id": "C100", "title": "The warnings about the code are those about the references that are wrong", "statement": "In every project that could be read, each warning about the code is about a reference in a source file, at its file and line, that is wrong: there is no such artifact, or it is marked as done, or the subname is not written in its text. Each reference that is wrong is warned about, at its place and for its reason, though name and subname may be spelled as in another reference to the same. So there is no warning about the code exactly if all references in it are right.", "quantifier": "all directory trees, contents of source files and artifacts, settings, libraries, numbers of processors, schedules and results of a successful read", "why_tests_cant": "references can be in any number of files, in any spelling, within or outside of skipped regions; tests try a few references in one project", "anchors": ["artifact-data/src/project.rs:255-316", "artifact-data/src/implemented.rs:44-187", "artifact-data/src/project.rs:43-182"]}

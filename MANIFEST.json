{
 "claims": [
  {
   "property": "C01",
   "status": "partial",
   "theorems": [
    "Art.C01_accepted_iff",
    "Art.C01_panic_iff",
    "Art.C01_no_panic_false",
    "Art.C01_ascii_partial"
   ],
   "note": "Exact accepted language and exact panic set proved for all strings; the no-panic half of the claim is false (proved with a witness), and holds for all strings without U+017F/U+212A (C01_ascii_partial)."
  },
  {
   "property": "C02",
   "status": "proved",
   "theorems": [
    "Art.C02_eq_iff",
    "Art.C02_coherent",
    "Art.C02_roundtrip",
    "Art.C02_hash"
   ],
   "note": "Equality, order, printing, reading and the bytes given to a hasher."
  },
  {
   "property": "C03",
   "status": "proved",
   "theorems": [
    "Art.C03_sub_accepted_iff",
    "Art.C03_sub_ascii",
    "Art.C03_sub_eq_iff",
    "Art.C03_full_injective"
   ],
   "note": "All strings."
  },
  {
   "property": "C04",
   "status": "proved",
   "theorems": [
    "Art.C04_parent",
    "Art.C04_autoPartof",
    "Art.C04_acyclic",
    "Art.C04_congr"
   ],
   "note": "All names."
  },
  {
   "property": "C05",
   "status": "proved",
   "theorems": [
    "Art.C05_partof_shown",
    "Art.C05_roundtrip",
    "Art.C05_clean",
    "Art.C05_written_link_lost"
   ],
   "note": "All artifact maps. C05_written_link_lost records that a user link to the own, undefined parent is dropped."
  },
  {
   "property": "C06",
   "status": "proved",
   "theorems": [
    "Art.C06_expand_iff",
    "Art.C06_denotes_unique",
    "Art.C06_error_iff",
    "Art.C06_contains",
    "Art.C06_empty_brackets",
    "Art.C06_text_after_bracket"
   ],
   "note": "All strings."
  },
  {
   "property": "C07",
   "status": "proved",
   "theorems": [
    "Art.C07_idem",
    "Art.C07_only_trailing",
    "Art.C07_canonical",
    "Art.C07_serde"
   ],
   "note": "All strings."
  },
  {
   "property": "C08",
   "status": "proved",
   "theorems": [
    "Art.C08_subnames"
   ],
   "note": "All texts."
  },
  {
   "property": "C09",
   "status": "proved",
   "theorems": [
    "Art.C09_token",
    "Art.C09_scan",
    "Art.C09_no_markers",
    "Art.C09_panics"
   ],
   "note": "All file contents (UTF-8). The scan panics exactly when a reported reference panics as a name (C01)."
  },
  {
   "property": "C10",
   "status": "proved",
   "theorems": [
    "Art.C10_lookup",
    "Art.C10_lints",
    "Art.C10_error_iff",
    "Art.C10_exact",
    "Art.C10_no_empty"
   ],
   "note": "All lists of scanned locations."
  },
  {
   "property": "C100",
   "status": "proved",
   "theorems": [
    "Art.Places.C100_only",
    "Art.Places.C100_all",
    "Art.Places.C100_clean"
   ],
   "note": "Which source files are found is walkCode (C29). One thread of each kind survives, as in C20."
  },
  {
   "property": "C11",
   "status": "proved",
   "theorems": [
    "Art.C11_reported",
    "Art.C11_lints",
    "Art.C11_all_named",
    "Art.C11_present",
    "Art.C11_one_file_lost",
    "Art.joinArtifacts_input"
   ],
   "note": "Definitions inside one TOML or JSON file are merged by the library before the check; C11_one_file_lost shows the loss."
  },
  {
   "property": "C12",
   "status": "proved",
   "theorems": [
    "Art.C12_converse",
    "Art.C15_total"
   ],
   "note": "For every load result, cyclic or dangling or not; no panic is C15_total."
  },
  {
   "property": "C13",
   "status": "proved",
   "theorems": [
    "Art.C13_reported_each",
    "Art.C13_reported",
    "Art.C13_resolvable",
    "Art.exBad_lints"
   ],
   "note": "For every loaded project; also for the lints of a modification."
  },
  {
   "property": "C14",
   "status": "proved",
   "theorems": [
    "Art.C14_reported_each",
    "Art.C14_reported",
    "Art.C14_auto",
    "Art.C14_order",
    "Art.exBad_lints"
   ],
   "note": "For every loaded project; order of types along links of any length."
  },
  {
   "property": "C15",
   "status": "proved",
   "theorems": [
    "Art.C15_total",
    "Art.toposort_contract"
   ],
   "note": "Every input, every topological order allowed by the contract of the library; ratios are exact rationals, for f64/f32 see C58_total and C58_range."
  },
  {
   "property": "C16",
   "status": "proved",
   "theorems": [
    "Art.C16_rule",
    "Art.C16_unique",
    "Art.C16_order_independent",
    "Art.C16_cyclic_independent",
    "Art.C16_same_ratios"
   ],
   "note": "Exact arithmetic. With the f64 arithmetic of the program order independence is false (C58_order_matters) and holds up to one thousandth (C58_orders)."
  },
  {
   "property": "C17",
   "status": "proved",
   "theorems": [
    "Art.C17_tst_eq_spc",
    "Art.C17_noninterference",
    "Art.C17_needs_acyclic"
   ],
   "note": "C17_needs_acyclic shows why cycles are excluded."
  },
  {
   "property": "C18",
   "status": "partial",
   "theorems": [
    "Art.C18_hundred",
    "Art.C18_everything_below",
    "Art.C18_rounding",
    "Art.C18_shown_hundred_false",
    "Art.Share.C90_hundred",
    "Art.Share.C90_hundred_sharp"
   ],
   "note": "Proved before rounding, with the exact rounding threshold; the claim for the displayed value is false and its negation is proved with a witness. C90_hundred proves it for the displayed value as far down as fewer than 2000 things are averaged, and that limit is exact."
  },
  {
   "property": "C19",
   "status": "partial",
   "theorems": [
    "Art.C19_cycle_iff",
    "Art.C19_silent",
    "Art.C19_no_cycle_lint"
   ],
   "note": "Detection is exact. The second half of the statement is false in the code: no lint is about cycles (C19_silent), with a cyclic project that has no lints (C19_no_cycle_lint)."
  },
  {
   "property": "C20",
   "status": "proved",
   "theorems": [
    "Art.C20_deterministic",
    "Art.C20_same_but_spelling",
    "Art.C20_total",
    "Art.C20_sends_scan",
    "Art.C20_case_matters",
    "Art.C20_panicking_file_lost"
   ],
   "note": "Every order of arrival, directory listing order, number of processors and topological order. Consistent spelling gives equality of the whole outcome; without it everything except the spelling of names in parts and code references is equal, and C20_case_matters shows that spelling does vary. Reads in which all workers of a kind crash are outside the model. Completion in exact arithmetic: with f64 it can vary by one thousandth (C58_order_matters, C58_orders)."
  },
  {
   "property": "C21",
   "status": "proved",
   "theorems": [
    "Art.C21_roundtrip",
    "Art.C21_exact",
    "Art.C21_save_load",
    "Art.yamlOk_satisfiable",
    "Art.C21_fence_loses_text",
    "Art.C21_fence_loses_artifact",
    "Art.C21_cr_lost",
    "Art.C21_all_false"
   ],
   "note": "Round trip for every list of artifacts whose text lines are plain text, every prefix and attribute style, given the YAML contract (shown satisfiable). The class of texts is exact for one artifact (C21_exact). Failure for attribute fences and carriage returns proved."
  },
  {
   "property": "C22",
   "status": "proved",
   "theorems": [
    "Art.C22_idempotent",
    "Art.C22_open_fence_false"
   ],
   "note": "Under the same conditions as C21; outside of them formatting is shown not to be idempotent."
  },
  {
   "property": "C23",
   "status": "proved",
   "theorems": [
    "Art.C23_untouched",
    "Art.C23_panic_untouched",
    "Art.C23_refused",
    "Art.C23_decision",
    "Art.C23_total"
   ],
   "note": "every refusal leaves the disk as it was; C23_decision says which refusal is given for which reason; C23_total: every request has an outcome"
  },
  {
   "property": "C24",
   "status": "proved",
   "theorems": [
    "Art.C24_stale",
    "Art.C24_mismatch_iff",
    "Art.C24_only_presented",
    "Art.C24_stale_accepted"
   ],
   "note": "the exception of C24_stale (an idle update of an artifact that the same batch brings in) is real: C24_stale_accepted"
  },
  {
   "property": "C25",
   "status": "proved",
   "theorems": [
    "Art.C25_ids",
    "Art.C25_batch",
    "Art.C25_literal",
    "Art.C25_read_sets"
   ],
   "note": "by id without assumptions on the hash (C25_ids); as a set of artifacts if no two different ones have the same id (C25_batch, C25_literal); C25_read_sets shows the assumptions on the project always hold"
  },
  {
   "property": "C26",
   "status": "proved",
   "theorems": [
    "Art.C26_overlap",
    "Art.C26_same",
    "Art.C26_order",
    "Art.C26_chained"
   ],
   "note": "chained ids are the exception: Unchained, shown necessary by C26_chained"
  },
  {
   "property": "C27",
   "status": "proved",
   "theorems": [
    "Art.C27_modify",
    "Art.C27_crash_safe",
    "Art.C27_failed",
    "Art.C27_done",
    "Art.C27_same_stem_loses",
    "Art.C27_file_root_removed",
    "Art.C27_second_run_loses"
   ],
   "note": "for disks without file-valued artifact paths and without two artifact files that differ only in the extension; both conditions are shown to be needed; one modification at a time"
  },
  {
   "property": "C28",
   "status": "partial",
   "theorems": [
    "Art.C28_partial",
    "Art.C28_inverted",
    "Art.C28_accepted_read_iff",
    "Art.C28_accepted_not_read",
    "Art.C28_read_not_accepted",
    "Art.checkPath_none_iff"
   ],
   "note": "The property is false in the code for files inside an excluded path (the exclude check is inverted): both directions refuted by concrete witnesses, and C28_inverted shows that check and loader never agree there. For files inside no excluded path the equivalence is proved."
  },
  {
   "property": "C29",
   "status": "proved",
   "theorems": [
    "Art.C29_artifacts",
    "Art.C29_code",
    "Art.C29_mem",
    "Art.C29_once",
    "Art.C29_missing"
   ],
   "note": "Exact multiplicity of every file in the walk of every well-formed tree, for artifacts and for code."
  },
  {
   "property": "C30",
   "status": "proved",
   "theorems": [
    "Art.C30_stream_iff",
    "Art.C30_identifies",
    "Art.C30_identifies_done",
    "Art.C30_no_collision",
    "Art.C30_collision",
    "Art.C30_partof_case"
   ],
   "note": "Exact condition for equal bytes. The unrestricted claim fails: C30_collision is the witness. SipHash itself is a parameter."
  },
  {
   "property": "C31",
   "status": "proved",
   "theorems": [
    "Art.C31_roundtrip",
    "Art.C31_text",
    "Art.C31_accepts",
    "Art.C31_short_accepted"
   ],
   "note": "All ids round trip; exactly which other texts are accepted."
  },
  {
   "property": "C32",
   "status": "proved",
   "theorems": [
    "Art.C32_exact",
    "Art.C32_canonical",
    "Art.C32_sort_idem",
    "Art.C32_isEmpty"
   ],
   "note": "All lint sequences."
  },
  {
   "property": "C33",
   "status": "proved",
   "theorems": [
    "Art.C33_status",
    "Art.C33_clean",
    "Art.C33_one_status"
   ],
   "note": "The status for every outcome of reading; what status 0 guarantees; independence of the schedule for any spelling of names."
  },
  {
   "property": "C34",
   "status": "proved",
   "theorems": [
    "Art.C34_exact",
    "Art.C34_no_pattern",
    "Art.C34_refused",
    "Art.C34_narrows",
    "Art.C34_help_says_or",
    "Art.C34_subnames_ignored",
    "Art.C34_completion_ignored",
    "Art.C34_long_separators"
   ],
   "note": "Regex engine is a parameter. The help text promises a disjunction: C34_help_says_or is the witness."
  },
  {
   "property": "C35",
   "status": "proved",
   "theorems": [
    "Art.C35_accepts",
    "Art.C35_selection",
    "Art.C35_order",
    "Art.C35_columns",
    "Art.C35_display",
    "Art.C35_all_refused"
   ],
   "note": "For all selection strings."
  },
  {
   "property": "C36",
   "status": "proved",
   "theorems": [
    "Art.C36_linearizable",
    "Art.C36_failed_unchanged",
    "Art.C36_loaded",
    "Art.C36_write_safe",
    "Art.C36_disk_unchanged",
    "Art.C36_fresh",
    "Art.C36_crash_is_final",
    "Art.C36_panic_in_params",
    "Art.C36_panics",
    "Art.C36_stale_after_failure",
    "Art.C36_create_then_reload"
   ],
   "note": "Linearisability for concurrent requests, failures leave the served project unchanged; also proved: a crash is final, and a failed save leaves the disk different from what is served."
  },
  {
   "property": "C37",
   "status": "proved",
   "theorems": [
    "Art.Web.C37_one_in_flight",
    "Art.Web.C37_edit_kept",
    "Art.Web.C37_fresh",
    "Art.Web.C37_gone_for_good",
    "Art.Web.C37_content",
    "Art.Web.C37_saved_is_sent_partial",
    "Art.Web.C37_success",
    "Art.Web.C37_failed_keeps",
    "Art.Web.C37_busy",
    "Art.Web.C37_save",
    "Art.Web.C37_save_panics_iff",
    "Art.Web.C37_save_new_panics",
    "Art.Web.C37_type_panics_iff",
    "Art.Web.C37_edit_panics_iff",
    "Art.Web.C37_close_panics_iff",
    "Art.Web.C37_others_never_panic",
    "Art.Web.C37_view_after",
    "Art.Web.C37_infos_empty",
    "Art.Web.C37_static_sends",
    "Art.Web.C37_late_keystrokes_false"
   ],
   "note": "All histories of the page: at most one request, an edit changes only by typing and goes only by cancel or by the success response to an update that contained it, a failure keeps it. That late keystrokes survive is refuted by a concrete history; C37_saved_is_sent_partial shows nothing else is lost. Panics characterised per message."
  },
  {
   "property": "C38",
   "status": "proved",
   "theorems": [
    "Art.C38_total",
    "Art.C38_monotone",
    "Art.C38_green_red",
    "Art.C38_printed",
    "Art.C38_bands"
   ],
   "note": "For all rational ratios; for the f32 numbers that are shown C58_points and C58_printed give the same points and printed numbers."
  },
  {
   "property": "C39",
   "status": "proved",
   "theorems": [
    "Art.C39_inside",
    "Art.C39_iff",
    "Art.C39_sibling"
   ],
   "note": "Exact condition; the unrestricted claim fails (C39_sibling)."
  },
  {
   "property": "C40",
   "status": "proved",
   "theorems": [
    "Art.C40_warned",
    "Art.C40_crash",
    "Art.C40_crash_iff",
    "Art.exBad_lints"
   ],
   "note": "Exact set of warnings whenever the lints are computed; the exact inputs on which the program crashes instead."
  },
  {
   "property": "C41",
   "status": "proved",
   "theorems": [
    "Art.C41_warned",
    "Art.C41_each",
    "Art.exBad_lints"
   ],
   "note": "Exact set of warnings; each recorded location is warned about exactly when it is wrong."
  },
  {
   "property": "C42",
   "status": "proved",
   "theorems": [
    "Art.C42_reported",
    "Art.C42_safe",
    "Art.C42_fence_false",
    "Art.C21_cr_lost"
   ],
   "note": "The fence hypothesis is part of the statement; carriage returns at line ends are a further exception, shown to be needed."
  },
  {
   "property": "C43",
   "status": "proved",
   "theorems": [
    "Art.C43_roundtrip",
    "Art.C43_raw_normal",
    "Art.C43_no_panic",
    "Art.C43_empty_panics"
   ],
   "note": "All artifacts."
  },
  {
   "property": "C44",
   "status": "proved",
   "theorems": [
    "Art.C44_reported",
    "Art.C44_done_overrides",
    "Art.exBad_lints"
   ],
   "note": ""
  },
  {
   "property": "C45",
   "status": "proved",
   "theorems": [
    "Art.C45_nearest",
    "Art.C45_none"
   ],
   "note": "For every tree and start directory with plain components; termination by construction."
  },
  {
   "property": "C46",
   "status": "proved",
   "theorems": [
    "Art.C46_renders",
    "Art.C46_reload",
    "Art.C46_fmt",
    "Art.C46_notes_removed",
    "Art.C46_accepted_then_crashes"
   ],
   "note": "after a successful modification or fmt every later read gives the same artifacts up to spelling, or panics exactly for references with U+017F; conditions: the text formats restore the written text, files reached once, settings and code apart from artifact files; exKept and exFmt are cases"
  },
  {
   "property": "C47",
   "status": "proved",
   "theorems": [
    "Art.C47_route",
    "Art.C47_exhaustive",
    "Art.C47_panic_iff",
    "Art.C47_ascii",
    "Art.C47_no_panic_false",
    "Art.C47_artifact_link",
    "Art.C47_edit_link",
    "Art.C47_links_injective",
    "Art.C47_unanchored"
   ],
   "note": "Complete characterisation of View::from_hash by infixes of the hash; never a panic is refuted for one non-ASCII spelling of the type (C47_no_panic_false) and proved for every ASCII hash (C47_ascii)."
  },
  {
   "property": "C48",
   "status": "proved",
   "theorems": [
    "Art.C48_spc_monotone",
    "Art.C48_tst_monotone_false",
    "Art.C48_wrong_reference_lowers"
   ],
   "note": "spc monotone; tst is not (negation proved); a reference to a subname that does not exist lowers spc (witness)."
  },
  {
   "property": "C49",
   "status": "proved",
   "theorems": [
    "Art.C49_frame",
    "Art.C49_inside",
    "Art.C49_no_settings",
    "Art.C49_foreign_backup_removed"
   ],
   "note": "no condition on the disk beyond being a tree; that everything touched lies under an artifact path needs that no artifact path is a file"
  },
  {
   "property": "C50",
   "status": "proved",
   "theorems": [
    "Art.C50_kinds",
    "Art.C50_methods",
    "Art.C50_distinct"
   ],
   "note": "For all strings."
  },
  {
   "property": "C51",
   "status": "proved",
   "theorems": [
    "Art.C51_inside",
    "Art.C51_spellings",
    "Art.C51_dotdot"
   ],
   "note": "PathAbs::new on the resolved path is taken to succeed."
  },
  {
   "property": "C52",
   "status": "proved",
   "theorems": [
    "Art.C52_interrupt"
   ],
   "note": "The mutex is taken by the main thread before it ends."
  },
  {
   "property": "C53",
   "status": "proved",
   "theorems": [
    "Art.Whole.C53_server",
    "Art.Whole.C53_page",
    "Art.Whole.C53_ops_arrive",
    "Art.Whole.C53_readable",
    "Art.Whole.C53_shown",
    "Art.Whole.C53_saved",
    "Art.Whole.C53_original",
    "Art.Whole.C53_no_lost_update",
    "Art.Whole.C53_second_refused",
    "Art.Whole.C53_untouched",
    "Art.Whole.C53_can_save",
    "Art.Whole.C53_reloaded"
   ],
   "note": "Page and server together. C53_no_lost_update needs that the hash has no collision among the artifacts in question and excludes forms opened on the example project before the first answer; C53_second_refused has the conditions of C46_reload."
  },
  {
   "property": "C54",
   "status": "proved",
   "theorems": [
    "Art.C54_artifact",
    "Art.C54_search",
    "Art.C54_link",
    "Art.C54_click"
   ],
   "note": ""
  },
  {
   "property": "C55",
   "status": "proved",
   "theorems": [
    "Art.C55_cut",
    "Art.C55_found",
    "Art.C55_text",
    "Art.C55_crash",
    "Art.C55_warned",
    "Art.C55_document",
    "Art.C55_cut_short",
    "Art.C55_bad_url",
    "Art.C55_only_dest",
    "Art.C55_exported",
    "Art.C55_succeeds_iff",
    "Art.C55_crashed",
    "Art.C55_bad_url_overwrites",
    "Art.C55_empty_graph",
    "Art.C55_typed_crash"
   ],
   "note": "for projects that were read; art export html is not modelled"
  },
  {
   "property": "C56",
   "status": "proved",
   "theorems": [
    "Art.C56_started",
    "Art.C56_makes",
    "Art.C56_refused",
    "Art.C56_half_made",
    "Art.C56_only",
    "Art.C56_tree",
    "Art.C56_never_resumed",
    "Art.C56_found",
    "Art.C56_project",
    "Art.C56_check",
    "Art.C56_overwrites",
    "Art.C56_stuck"
   ],
   "note": "the claim that a text is never destroyed is false in the code (C56_overwrites), as is that a failed run can be repeated (C56_stuck)"
  },
  {
   "property": "C57",
   "status": "proved",
   "theorems": [
    "Art.C57_saved",
    "Art.C57_in_order",
    "Art.C57_twice",
    "Art.C57_check"
   ],
   "note": "for every disk, schedule and number of processors, under the conditions of C46; backups are excepted because a backup that is excluded or cannot be removed stays"
  },
  {
   "property": "C58",
   "status": "proved",
   "theorems": [
    "Art.C58_ieee",
    "Art.C58_unique",
    "Art.C58_exact",
    "Art.C58_total",
    "Art.C58_shown",
    "Art.C58_range",
    "Art.C58_close",
    "Art.C58_small",
    "Art.C58_orders",
    "Art.C58_order_matters",
    "Art.C58_points",
    "Art.C58_printed",
    "Art.C58_no_tie",
    "Art.C58_distinct"
   ],
   "note": "IEEE 754 rounding after every operation. The bound on the number of slots is 2^42 for the one-thousandth statements (2^53 for termination). Infinities, NaN and overflow cannot occur within these bounds and are not in the model."
  },
  {
   "property": "C59",
   "status": "proved",
   "theorems": [
    "Art.Web.C59_refines",
    "Art.Web.C59_picture",
    "Art.Web.C59_exact",
    "Art.Web.C59_busy_unseen",
    "Art.Web.C59_close",
    "Art.Web.C59_close_reorders",
    "Art.Web.C59_fields",
    "Art.Web.C59_links",
    "Art.Web.C59_typed",
    "Art.Web.C59_panes",
    "Art.Web.C59_buttons",
    "Art.Web.C59_follow",
    "Art.Web.C59_open",
    "Art.Web.C59_draw_iff",
    "Art.Web.C59_survives",
    "Art.Web.C59_reachable"
   ],
   "note": "For every painter and every history of the page. Following a link to an edit and opening a form assume that ids fit into usize (nextId <= lim)."
  },
  {
   "property": "C60",
   "status": "proved",
   "theorems": [
    "Art.Web.C60_controls",
    "Art.Web.C60_text",
    "Art.Web.C60_stored",
    "Art.Web.C60_typed",
    "Art.Web.C60_part",
    "Art.Web.C60_graph",
    "Art.Web.C60_page",
    "Art.Web.C60_colour",
    "Art.Web.C60_safe",
    "Art.Web.C60_drawn",
    "Art.Web.C60_typed_crash",
    "Art.Web.C60_torn",
    "Art.Web.C60_fence",
    "Art.Web.C60_message"
   ],
   "note": "For every browser. C60_drawn assumes places and addresses without line breaks and no line \"```[[NAME]]\" in a graph; C60_fence shows that the latter is needed. That the graph of a search is drawn assumes what C54 says about the order of hash maps."
  },
  {
   "property": "C61",
   "status": "proved",
   "theorems": [
    "Art.C61_table",
    "Art.C61_long",
    "Art.C61_total",
    "Art.C61_plain",
    "Art.C61_one_line",
    "Art.C61_text",
    "Art.C61_long_ignores",
    "Art.C61_done_red",
    "Art.C61_torn",
    "Art.C61_ambiguous",
    "Art.exDoc_table",
    "Art.exDoc_long"
   ],
   "note": "The output of art ls cell by cell and line by line; the layout by termstyle is trusted."
  },
  {
   "property": "C62",
   "status": "proved",
   "theorems": [
    "Art.C62_reads",
    "Art.C62_unambiguous",
    "Art.C62_written",
    "Art.C62_back",
    "Art.C62_injective",
    "Art.C62_file",
    "Art.C62_file_unique",
    "Art.C62_survives",
    "Art.C62_reload",
    "Art.C62_fmt",
    "Art.C62_unknown_lost"
   ],
   "note": "The reader is shown equal to the grammar of RFC 8259 up to depth 127. C62_unknown_lost records that unknown fields are dropped."
  },
  {
   "property": "C63",
   "status": "proved",
   "theorems": [
    "Art.C63_request",
    "Art.C63_injective",
    "Art.C63_answer",
    "Art.C63_becomes",
    "Art.C63_toSer",
    "Art.C63_static",
    "Art.C63_text_injective",
    "Art.C63_ls",
    "Art.C63_lints",
    "Art.C63_lints_unseen",
    "Art.C63_toc",
    "Art.C63_id_limit",
    "Art.C63_last"
   ],
   "note": "Texts of calls and answers from the page to the server and back. How thousandths are written and read is a parameter with the contract NumbersBack; paths are sent as they are."
  },
  {
   "property": "C64",
   "status": "proved",
   "theorems": [
    "Art.C64_sound",
    "Art.C64_complete",
    "Art.C64_modify",
    "Art.C64_safe",
    "Art.C64_overlap_doomed",
    "Art.C64_overlap_depends_on_timing"
   ],
   "note": "Simulation between the walk in progress and the walk made before, for separate artifact paths; for paths inside one another the negation is proved."
  },
  {
   "property": "C65",
   "status": "proved",
   "theorems": [
    "Art.Chan.C65_ends",
    "Art.Chan.C65_never_stuck",
    "Art.Chan.C65_finishes",
    "Art.Chan.C65_received",
    "Art.Chan.C65_arrives",
    "Art.Chan.C65_reads",
    "Art.Chan.C65_same",
    "Art.Chan.C65_lost"
   ],
   "note": "All executions of the threads of read_project; C65_lost is the witness for finding 40."
  },
  {
   "property": "C66",
   "status": "proved",
   "theorems": [
    "Art.Chan.C66_backup_ends",
    "Art.Chan.C66_backup_never_stuck",
    "Art.Chan.C66_backup_all",
    "Art.Chan.C66_backup_finishes",
    "Art.Chan.C66_save_ends",
    "Art.Chan.C66_save_never_stuck",
    "Art.Chan.C66_save_stuck",
    "Art.Chan.C66_save_all",
    "Art.Chan.C66_save_returns_iff",
    "Art.Chan.C66_save_safe",
    "Art.Chan.C66_full_disk_blocks",
    "Art.Chan.C66_save_returns_false"
   ],
   "note": "Exact condition under which writing blocks; C66_save_returns_false is the witness for finding 41."
  },
  {
   "property": "C67",
   "status": "proved",
   "theorems": [
    "Art.C67_reads",
    "Art.C67_unambiguous",
    "Art.C67_scalar",
    "Art.C67_yamlOk",
    "Art.C67_yamlOk_iff",
    "Art.C67_doneOk",
    "Art.C67_markdown",
    "Art.C67_lost",
    "Art.C67_survives",
    "Art.C67_reload",
    "Art.C67_fmt",
    "Art.C67_fmt_lost"
   ],
   "note": "For a library that reads the part of YAML in Spec/Yaml.lean as it says and writes texts as yaml-rust does. exYaml_kept is a project that meets the hypotheses of C67_fmt."
  },
  {
   "property": "C68",
   "status": "proved",
   "theorems": [
    "Art.C68_reads",
    "Art.C68_settings",
    "Art.C68_unambiguous",
    "Art.C68_settings_unambiguous",
    "Art.C68_string",
    "Art.C68_written",
    "Art.C68_unreadable",
    "Art.C68_survives",
    "Art.C68_survives_iff",
    "Art.C68_reload",
    "Art.C68_fmt",
    "Art.C68_fmt_lost",
    "Art.C68_init",
    "Art.C68_init_part",
    "Art.C68_init_killed"
   ],
   "note": "for the fragment of TOML in Spec/Toml.lean; the writer of toml 0.4.10 is modelled from memory of the library"
  },
  {
   "property": "C69",
   "status": "proved",
   "theorems": [
    "Art.C69_name",
    "Art.C69_sub_name",
    "Art.C69_tst",
    "Art.C69_text_subs",
    "Art.C69_text_refs",
    "Art.C69_source",
    "Art.C69_urls",
    "Art.C69_lines",
    "Art.C69_name_line",
    "Art.C69_replace",
    "Art.C69_is_match",
    "Art.C69_ls_case",
    "Art.C69_ls_escaped",
    "Art.C69_ls_word",
    "Art.C69_ls_group",
    "Art.C69_page_word",
    "Art.C69_page_empty",
    "Art.C69_page_search",
    "Art.C69_ls_shows"
   ],
   "note": "relative to CharsOk (the case folding tables of the regex crate); the parser covers the syntax used in /repo"
  },
  {
   "property": "C70",
   "status": "proved",
   "theorems": [
    "Art.Cli.C70_command",
    "Art.Cli.C70_refused",
    "Art.Cli.C70_order",
    "Art.Cli.C70_known",
    "Art.Cli.C70_verbose",
    "Art.Cli.C70_repeated",
    "Art.Cli.C70_counted",
    "Art.Cli.C70_help"
   ],
   "note": "clap is modelled from memory; an option without its value is left open"
  },
  {
   "property": "C71",
   "status": "proved",
   "theorems": [
    "Art.Cli.C71_html_iff",
    "Art.Cli.C71_fresh",
    "Art.Cli.C71_again",
    "Art.Cli.C71_path",
    "Art.Cli.C71_html_iff_ready",
    "Art.Cli.C71_html",
    "Art.Cli.C71_hosted",
    "Art.Cli.C71_status",
    "Art.Cli.C71_changes",
    "Art.Cli.C71_outside",
    "Art.Cli.C71_fmt_type",
    "Art.Cli.C71_runs",
    "Art.Cli.C71_refused",
    "Art.Cli.C71_main",
    "Art.Cli.C71_serve_reads",
    "Art.Cli.C71_half",
    "Art.Cli.C71_no_dir"
   ],
   "note": "the archive with the page is a list of files; what serve writes is in C36 and C49"
  },
  {
   "property": "C72",
   "status": "proved",
   "theorems": [
    "Art.Cli.C72_local",
    "Art.Cli.C72_tree",
    "Art.Cli.C72_apart",
    "Art.Cli.C72_session",
    "Art.Cli.C72_check",
    "Art.Cli.C72_files",
    "Art.Cli.C72_export_into_code",
    "Art.Cli.C72_export_into_design"
   ],
   "note": "Theorems for all sequences of commands; the two negations show that the restriction to paths outside of the project is needed."
  },
  {
   "property": "C73",
   "status": "proved",
   "theorems": [
    "Art.Archive.C73_fails_iff",
    "Art.Archive.C73_unpacks",
    "Art.Archive.C73_complete_iff",
    "Art.Archive.C73_good",
    "Art.Archive.C73_page",
    "Art.Archive.C73_lost",
    "Art.Archive.C73_damage",
    "Art.Archive.C73_unnoticed"
   ],
   "note": "Bytes of the archive modelled; the ignored error is shown with a witness."
  },
  {
   "property": "C74",
   "status": "proved",
   "theorems": [
    "Art.Cli.C74_read",
    "Art.Cli.C74_modify",
    "Art.Cli.C74_served",
    "Art.Cli.C74_answer",
    "Art.Cli.C74_restart",
    "Art.Cli.C74_life"
   ],
   "note": "under the conditions of the statement; C36 and C46 have theorems that show what happens without them"
  },
  {
   "property": "C75",
   "status": "proved",
   "theorems": [
    "Art.Url.C75_format",
    "Art.Url.C75_any",
    "Art.Url.C75_checked",
    "Art.Url.C75_shown",
    "Art.Url.C75_usual",
    "Art.Url.C75_distinct",
    "Art.Url.C75_chars",
    "Art.Url.C75_one_line",
    "Art.Url.C75_same",
    "Art.Url.C75_raw",
    "Art.Url.C75_breaks"
   ],
   "note": "strfmt is modelled from memory of the library; formats after the colon are a parameter"
  },
  {
   "property": "C76",
   "status": "proved",
   "theorems": [
    "Art.Http.C76_call",
    "Art.Http.C76_same",
    "Art.Http.C76_harmless",
    "Art.Http.C76_status",
    "Art.Http.C76_readable",
    "Art.Http.C76_preflight",
    "Art.Http.C76_unrouted",
    "Art.Http.C76_any_page",
    "Art.Http.C76_reads",
    "Art.Http.C76_writes",
    "Art.Http.C76_kill"
   ],
   "note": "the server is open to pages of all origins (finding 54); path matching of nickel and the static files are parameters"
  },
  {
   "property": "C77",
   "status": "proved",
   "theorems": [
    "Art.Conf.C77_reads",
    "Art.Conf.C77_unambiguous",
    "Art.Conf.C77_extends",
    "Art.Conf.C77_ignored",
    "Art.Conf.C77_misspelt",
    "Art.Conf.C77_toc",
    "Art.Conf.C77_toc_on",
    "Art.Conf.C77_init",
    "Art.Conf.C77_export"
   ],
   "note": "The part of TOML is larger than in C68 but not all of it."
  },
  {
   "property": "C78",
   "status": "proved",
   "theorems": [
    "Art.Links.C78_text",
    "Art.Links.C78_contents",
    "Art.Links.C78_graph",
    "Art.Links.C78_no_rule"
   ],
   "note": "for every rule by which headings are marked"
  },
  {
   "property": "C79",
   "status": "proved",
   "theorems": [
    "Art.Depends.C79_rule",
    "Art.Depends.C79_pairs",
    "Art.Depends.C79_local",
    "Art.Depends.C79_one",
    "Art.Depends.C79_moved",
    "Art.Depends.C79_cycle"
   ],
   "note": "for all pairs of projects that can be read"
  },
  {
   "property": "C80",
   "status": "proved",
   "theorems": [
    "Art.Undo.C80_exists",
    "Art.Undo.C80_again",
    "Art.Undo.C80_back",
    "Art.Undo.C80_merge",
    "Art.Undo.C80_excluded"
   ],
   "note": "Holds for all accepted batches; the two conditions on merging updates and excluded roots are shown to be needed by C80_merge and C80_excluded."
  },
  {
   "property": "C81",
   "status": "proved",
   "theorems": [
    "Art.Split.C81_split",
    "Art.Split.C81_order",
    "Art.Split.C81_chain"
   ],
   "note": "For batches about different ids; C81_chain shows that this is needed."
  },
  {
   "property": "C82",
   "status": "proved",
   "theorems": [
    "Art.Team.C82_sound",
    "Art.Team.C82_modify",
    "Art.Team.C82_safe",
    "Art.Team.C82_crash",
    "Art.Team.C82_stuck",
    "Art.Team.C82_never_stuck",
    "Art.Team.C82_can_block"
   ],
   "note": "Refinement of the phases by the threads with bounded channels; the state after a crash; exactly when the threads can block."
  },
  {
   "property": "C83",
   "status": "proved",
   "theorems": [
    "Art.Reports.C83_complete",
    "Art.Reports.C83_between",
    "Art.Reports.C83_modify",
    "Art.Reports.C83_create"
   ],
   "note": "Both lists of lints are exactly the complaints of the specification; two projects with the same code, and the project before and after a saved batch, differ in warnings only for reasons that lie in changed artifacts."
  },
  {
   "property": "C84",
   "status": "proved",
   "theorems": [
    "Art.Bytes.C84_histories",
    "Art.Bytes.C84_return",
    "Art.Bytes.C84_back",
    "Art.Bytes.C84_order",
    "Art.Bytes.C84_split",
    "Art.Bytes.C84_first"
   ],
   "note": "For all series of saved batches; C84_first shows that the first batch may change files of untouched artifacts."
  },
  {
   "property": "C85",
   "status": "proved",
   "theorems": [
    "Art.Layout.C85_layout",
    "Art.Layout.C85_reports",
    "Art.Layout.C85_move"
   ],
   "note": "two readings with the same artifacts in any files; moves as a saved batch"
  },
  {
   "property": "C86",
   "status": "proved",
   "theorems": [
    "Art.Pair.C86_frame",
    "Art.Pair.C86_alone",
    "Art.Pair.C86_last",
    "Art.Pair.C86_lost",
    "Art.Pair.C86_wiped",
    "Art.Pair.C86_ruin",
    "Art.Pair.C86_reader"
   ],
   "note": "what holds is proved for all runs; that edits and whole projects can be lost is proved by concrete runs"
  },
  {
   "property": "C87",
   "status": "proved",
   "theorems": [
    "Art.C87_headings",
    "Art.C87_once",
    "Art.C87_exported",
    "Art.C87_forged_done",
    "Art.C87_forged_graph"
   ],
   "note": "Headings of the exported document for all projects without errors; two ways to forge one by concrete projects."
  },
  {
   "property": "C88",
   "status": "proved",
   "theorems": [
    "Art.Recover.C88_restore",
    "Art.Recover.C88_all",
    "Art.Recover.C88_crash",
    "Art.Recover.C88_error",
    "Art.Recover.C88_backups",
    "Art.Recover.C88_determined",
    "Art.Recover.C88_ambiguous",
    "Art.Recover.C88_no_procedure"
   ],
   "note": "Cases in Cases/Recover.lean: early_case, failed_case"
  },
  {
   "property": "C89",
   "status": "proved",
   "theorems": [
    "Art.Hand.C89_kept",
    "Art.Hand.C89_refused",
    "Art.Hand.C89_unseen"
   ],
   "note": "Cases in Cases/Hand.lean: hand_case, refused_case"
  },
  {
   "property": "C90",
   "status": "proved",
   "theorems": [
    "Art.Share.C90_share",
    "Art.Share.C90_hundred",
    "Art.Share.C90_zero",
    "Art.Share.C90_counts",
    "Art.Share.C90_hundred_sharp",
    "Art.Share.C90_zero_sharp"
   ],
   "note": "Both limits are exact: witnesses at 2000 and 2001. Completes C18: says when the displayed value can be trusted."
  },
  {
   "property": "C91",
   "status": "proved",
   "theorems": [
    "Art.Grammar.C91_cut",
    "Art.Grammar.C91_reads",
    "Art.Grammar.C91_above",
    "Art.Grammar.C91_unclosed",
    "Art.Grammar.C91_removed"
   ],
   "note": "Exact: reading succeeds with a result iff the grammar says so. Errors are characterised as the absence of a meaning, not by kind."
  },
  {
   "property": "C92",
   "status": "proved",
   "theorems": [
    "Art.Tested.C92_share",
    "Art.Tested.C92_hundred",
    "Art.Tested.C92_zero",
    "Art.Tested.C92_tst_monotone",
    "Art.Tested.C92_hundred_sharp",
    "Art.Tested.C92_zero_sharp"
   ],
   "note": "Trust limits of the tested percentage, exact, and monotonicity when code comes with its tests."
  },
  {
   "property": "C93",
   "status": "proved",
   "theorems": [
    "Art.Merge.C93_join",
    "Art.Merge.C93_parts",
    "Art.Merge.C93_reorder",
    "Art.Merge.C93_move",
    "Art.Merge.C93_needs_closed",
    "Art.Merge.C93_needs_start"
   ],
   "note": "Equivalence for joining; both conditions shown to be needed."
  },
  {
   "property": "C94",
   "status": "proved",
   "theorems": [
    "Art.Fault.C94_reported",
    "Art.Fault.C94_first",
    "Art.Fault.C94_second",
    "Art.Fault.C94_heads"
   ],
   "note": "Failures of from_markdown characterised exactly, including panics; concrete cases in Cases/Fault.lean"
  },
  {
   "property": "C95",
   "status": "proved",
   "theorems": [
    "Art.Better.C95_slots",
    "Art.Better.C95_spc",
    "Art.Better.C95_tst",
    "Art.Better.C95_done",
    "Art.Better.C95_done_lowers"
   ],
   "note": "Exact arithmetic, as in C16; all pairs of readings with the same links, cycles included"
  },
  {
   "property": "C96",
   "status": "proved",
   "theorems": [
    "Art.Grow.C96_finished",
    "Art.Grow.C96_tested",
    "Art.Grow.C96_planned",
    "Art.Grow.C96_untested",
    "Art.Grow.C96_cycle_lowers"
   ],
   "note": "Exact arithmetic, as in C16; all pairs of readings"
  },
  {
   "property": "C97",
   "status": "proved",
   "theorems": [
    "Art.Origin.C97_shown",
    "Art.Origin.C97_only"
   ],
   "note": "Holds for reads in which one thread of each kind survives, as C20; the other reads are in C65. The abnormal end of a thread is an alternative of the theorem, with its exact condition (C94)."
  },
  {
   "property": "C98",
   "status": "proved",
   "theorems": [
    "Art.Entries.C98_reads",
    "Art.Entries.C98_fails",
    "Art.Entries.C98_shown",
    "Art.Entries.C98_lost"
   ],
   "note": "The text of a document is read by the library (a parameter; for parts of JSON and TOML see C62 and C68). One thread of each kind survives, as in C20."
  },
  {
   "property": "C99",
   "status": "proved",
   "theorems": [
    "Art.Places.C99_places",
    "Art.Places.C99_once",
    "Art.Places.C99_shown",
    "Art.Places.C99_exported"
   ],
   "note": "Which source files are found is walkCode (C29). One thread of each kind survives, as in C20."
  }
 ]
}
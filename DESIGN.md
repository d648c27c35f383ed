# Formal model of rsyslog/liblognorm in Lean 4

The C code in `/repo` was read as text; nothing was built or run.  Everything
below is about the Lean model in `/verif/lean/Verif`, whose definitions each cite
the file and lines they model.

## 1. Trusted base

* Lean 4.33.0's kernel.  Axioms: at most `propext`, `Classical.choice`,
  `Quot.sound` (checked with `#print axioms`, see section 6).  No axioms of our own, no
  `native_decide`, no `bv_decide`.
* The faithfulness of the hand translation (checked only by reading).
* The build configuration: default `configure` build, so `NDEBUG` is defined
  (asserts are no-ops), `ADVANCED_STATS` off, regex/v1 parsers only where said.
* The C locale for `isspace/isdigit/isalpha/isxdigit/...` (bytes >= 128 are in no
  class; glibc tolerates negative `char` arguments).
* Memory allocation never fails (the `NULL`/-1 out-of-memory branches are dropped).
* External libraries are parameters of the model (structure `Env`), with assumed behaviour
  stated as explicit hypotheses where a theorem needs them:
  - json-c / libfastjson tokener: `tok : Bytes -> Option (Json x Nat)`;
  - libestr `es_unescapeStr`: `unescape : Bytes -> Bytes`;
  - `time(NULL)` (current year);
  - `qsort` (a permutation sorted by the comparison function, not necessarily stable).
* JSON objects are ordered association lists; `json_object_object_add` replaces in place or
  appends, `json_object_object_add_ex(..KEY_IS_NEW)` appends unconditionally,
  `json_object_object_get_ex` returns the first member; strings are byte strings and
  `json_object_new_string` stops at NUL.

## 2. Conventions

* `Bytes = List UInt8`.
* `R a = ok a | fail | ub k | oof`: `fail` is `LN_WRONGPARSER`, `ub k` is undefined behaviour of kind
  `k` (out-of-bounds read, null dereference, signed overflow, uninitialised read),
  `oof` is fuel exhaustion (used where the C code recurses or loops without an a-priori bound).
* `rd s i` models `str[i]`: byte for `i < len`, NUL for `i = len` (the API takes a C string
  *and* a length; reading the terminator is legal for callers that pass NUL-terminated
  strings), `ub oobRead` beyond.
* `Verif/Model/*` is the model, `Verif/Spec/*` the specifications (independent of the model's
  helpers), `Verif/Proofs/*` the helper lemmas, `Verif/Props/*` the property theorems, each with non-vacuity
  examples beside.
* If the code violates a property, the full property is kept in `properties.jsonl`, a theorem
  named `..._violated` proves the negation with a concrete witness, and a `..._partial` theorem proves the
  property under the hypotheses that exclude the defect.

## 3. Plan per property

| Id | Modelled | How proved |
|----|----------|------------|
| C01 | `ln_normalizeRec`, `tryParser`, `fixJSON`, `ln_normalize` over a heap of nodes | refinement: declarative path relation `Path g off fields node`; induction on fuel. Custom types / repeat share position state (see C15), so full for rulebases without these, plus general form with the code's own consumption rule |
| C02 | same | induction on the path, for parsers as deterministic functions |
| C03 | same + `qsort_parserCmp` | search returns the lexicographically first path; sorted by priority after optimise |
| C04 | `ln_normalize`, `addUnparsedField` | `json` only changes on success: invariant over the recursion |
| C05 | `npb->parsedTo` | upper bound and attained: induction; false with custom types (witness) |
| C06 | all of the above with UB outcomes | no-`ub` theorem per parser and for the search under explicit side conditions; one witness per excluded condition |
| C07 | search with fuel | measure (position, rank of node) for acyclic graphs; witnesses of non-termination for repeat of empty and left recursion |
| C08 | node statistics are the only state changed | non-interference: result is independent of statistics; induction on histories |
| C09, C10 | `fixJSON` | case analysis against a separate spec function |
| C11 | end-node handling | terminal reported is on the matched path; witness for wrong tags with partial match |
| C12 | `annot.c` | induction over ops and tags |
| C13 | mockup string built reversed | invariant; spec = concatenation along the path |
| C14 | option word | bitwise algebra + non-interference |
| C15 | `tryParser` custom branch | partial: exact when no longer failed attempt precedes; witness of over-consumption |
| C16 | `ln_v2_parseRepeat` | loop invariant, partial; witnesses |
| C17 | `ln_pdagComponentOptimize`, `optLitPathCompact` | simulation between graphs before/after (flat fields: `Proofs/OptSem`; user-defined types and repeat: `Proofs/OptHolds`) |
| C18 | reference counts | invariant refcount = number of incoming parser edges (+ roots) |
| C19 | `ln_pdagAddParserInstance` | monotonicity: every old path is kept; with user-defined types: paths of the trie are derivations (`Spec/Types`, `Proofs/Types`); witness with second load after optimise; the 8-bit count of fields of a node: `NarrowDefs` (nowhere more than 255 different ways to go on) is kept as an invariant by adding rules (`Proofs/Narrow`), sharp by `C19_many_violated` |
| C20-C45 | one Lean function per `ln_v2_parse*` | `parse = ok (n, v) <-> spec` for all messages and offsets, spec declarative |
| C46 | `syslogTime2time_t` | equality with days-from-civil formula, all valid years |
| C47 | all parsers | bound `offs + n <= len` per parser; cee-syslog in the middle of a message violates (witness) |
| C48 | `parseLiteral`, `addSampToTree` | end-to-end theorem for literal rulebases |
| C49, C50, C51 | `samp.c` functions | round-trip encode/parse |
| C52, C53, C54 | `ln_sampRead`, `processAnnotate` | induction over text; witnesses; lines which are ignored silently are as good as empty lines, for all of each kind (Props/LongNames) |
| C55 | `addSampToTree` | idempotence; witness for tags overwritten |
| C56, C57, C58 | `enc_*.c` | decoder as left inverse of the escaper |
| C59, C60 | `liblognorm.c`, `lognorm.c` | state machine; witnesses |
| C61 | `read_line` | induction; witness for last line |
| C62 | `ln_pdagFindType` | invariant over histories; a type is the union of its definitions, by induction over derivations |
| C63 | statistics | invariant over histories |
| C64, C65 | `v1_ptree.c` | as C01/C02 for the v1 tree |
| C66 | loader + graph | the heap invariant of C18 is kept by every load, whatever the text |
| C67 | `ln_dbgprintf`, `ln_errprintf` | arithmetic on the truncated text; witness for the error text |
| C68 | API state machine | non-interference between handles, induction over call histories |
| C69 | main loop of `lognormalizer` | induction over lines against a specification of selection and counters |
| C70 | `ln_v1_normalize` | case analysis on the result of the search; witness |
| C71 | one Lean function per `ln_parse*` of `v1_parser.c` | `parse = ok (n, v) <-> spec` as C20-C45 |
| C72 | the same | bound `offs + n <= len`, no undefined behaviour; witnesses for the types which violate it |
| C73 | `ln_parseTokenized`, `ln_parseInterpret`, `ln_parseSuffixed`, `ln_parseRecursive` with their constructors and generated contexts | the generated context accepts what its field accepts; loop invariant for `tokenized`; witnesses |
| C74 | `v1_samp.c` | round trip of rule texts and documents, then C64 end to end; witnesses |
| C75 | constructors of `parser.c`, table and `ln_newParser` of `pdag.c` | parameters as functions of the JSON object (`Spec/FieldConf`); constructors fold over members, so result depends on lookups only; composed with C20-C46 |
| C76 | everything from `ln_sampLoadFromString` to `ln_normalize` | `Spec/Doc`: rules as written, their meaning, the event; composed of C47-C52 (loading), C15/C19 (graph and optimiser), C01-C05 (search), C10-C13 (annotation, metadata), C75 (fields); position of unparsed-data: the nodes left by path compaction are those not inside a shared literal run (`Proofs/OptReach`, `Proofs/DocFar`). Rules may break off before a field description that is not well formed or of an unknown type (`Breaks`): they leave a dead end in the graph, which counts for that position. The messages of `ln_newParser` about unknown types are not modelled |
| C77 | histories of API calls on any number of contexts (`Model/Api`) | `Spec/Api`: the rulebases loaded and options asked for, read off the history; invariant over the history and C08 (statistics do not matter) |
| C78 | `ln_sampRead`, `ln_sampCheckRunawayRule`, `processInclude`, `ln_sampLoad`, `ln_sampLoadFromString`, `ln_loadSamples` | `Spec/Include`: rulebases as trees of files, lines in pieces, locations; induction over the tree and the lines; composed with C76 |
| C79 | as C76 and C78, with `processType`, `ln_pdagFindType` and the custom type case of `tryParser` | `Spec/DocT`: what rules with user-defined types mean, also malformed ones; rules ↔ derivations ↔ paths of the graph before and after optimising; termination by the order of types |
| C80 | loader, `ln_pdagAddParser` with `ctorRepeat`/`repeatParam`, `ln_pdagOptimize` (literal merging), `ln_normalize` with `repeatLoop`, for a rule with repeat fields | `Spec/Repeat`: inference rules for reading a message with nested repetitions; they are deterministic and total; descriptions ↔ subgraphs; merging of literals keeps what is read; witness for named separators. Several rules: the main level is a tree whose edges are fields (`RTree`, also when a repeat field exists already and its data are deleted again), its branches are told apart by the message, the engine's verdict is the only way which can be read (`engine_verdict`, `TopAt.common`), the optimiser keeps it (`KeepsTop`) |
| C81 | `tryOpenRBFile`, `ln_sampLoad`, `include=` (`World.fs`) | `places`: the documented places in order; loading in this world = loading in a world in which the files have these names; witnesses for version 1 and the rulebases its `descent` fields name |
| C82 | `doOldCruft`, `ln_v1_loadSamples`, `ln_normalize` in `Model/Api` | C77 (histories) composed with C74; witnesses for lost rules |
| C83 | `ln_fullPdagStats`, `ln_pdagStats`, `ln_pdagStatsRec`, marks (`Model/Report`) | a generic marked walk (`Proofs/Walk`) visits each reachable node once; separation of the graphs of different types as an invariant of building and optimising (`Proofs/Sep`, `SepHist`); counts by permutation |
| C84 | `ln_genDotPDAGGraph*`, `ln_genStatsDotPDAGGraph*` | the same walk: the statements are a permutation of nodes and edges |
| C85 | `ln_pdagStatsExtended`, `ln_pdagComponentSetIDs`, `fixComponentID`, `deleteComponentID` | induction on the height of a node; on a tree each node is named once; without `alternative` every graph is a tree since no reference count exceeds 1 (`Proofs/NoShare`) |
| C86 | `main` of lognormalizer.c with GNU `getopt`, `handle_generic_option`, `genDOT`, end of `normalize` | command lines as an inductive relation (grouping, attached and separate arguments), proved equivalent to the scanner; settings by induction from the last option |
| C87 | all of the above: command line, loading, normalising, printing; also for rulebases with user-defined types (C79), `repeat` (C80) and `alternative` (C88) fields | composition of C61, C66, C69, C78 to C80, C86 and C88; names of fields show that events are classified rightly |
| C88 | `alternative` from text to event: `PartA`/`RuleA`/`AltOutcome` (Spec/DocA) say what rules with alternatives mean without the graph; malformed rules included | nodes are labelled with what was offered on the way (ATrie, Proofs/Alt): branches of one alternative share their target, so the label determines the node; then as C76, walks are choices from the labels (AltB–AltD). Violations: branches shared between rules, sequences, nesting |

## 4. What is modelled / not modelled

Every line of the table says which functions have a counterpart in the model.

| File | Modelled | Not modelled |
|------|----------|--------------|
| `pdag.c` | `ln_pdagFindType`, `ln_parserName2ID` and the table with its priorities, `ln_newParser`, `ln_newPDAG`, `ln_pdagDelete`, `pdagDeletePrs`, `optLitPathCompact`, `qsort_parserCmp`, `ln_pdagComponentOptimize`, `ln_pdagOptimize`, `ln_pdagAddParserInstance`, `ln_pdagAddParsers`, `ln_pdagAddParserInternal`, `ln_pdagAddParser`, `addOriginalMsg`, `addUnparsedField`, `fixJSON`, `tryParser`, `add_str_reversed`, `add_rule_to_mockup`, `ln_normalizeRec`, `addRuleMetadata`, `ln_normalize`, node statistics, `ln_fullPdagStats`, `ln_pdagStats*`, `ln_pdagClearVisited*`, `ln_pdagComponentSetIDs`, `fixComponentID`, `deleteComponentID`, `ln_genDotPDAGGraph*`, `ln_genStatsDotPDAGGraph*` (addresses printed as node names are a parameter) | what `ln_displayPDAG` prints (its walk at the end of every load is modelled, since it dereferences the data of repeat fields), debug output, `ADVANCED_STATS` |
| `parser.c` | all 32 `ln_v2_parse*` functions with constructors (and the destructor of `repeat`), time conversion | destructors which only free private data, display functions, `HAVE_...` variants |
| `samp.c` | rule texts, field descriptions, tags, types, annotations, prefixes, includes, reading of lines from files and strings, version check, `tryOpenRBFile`, `doOldCruft`, `ln_sampLoad`, `ln_sampLoadFromString` | texts of messages (and the number of messages if a file is not found in the rulebase directory either) |
| `annot.c` | `ln_addAnnotToSet`, `ln_combineAnnot`, `ln_addAnnotOp`, `ln_annotate` | deletion |
| `liblognorm.c`, `lognorm.c` | context life cycle, options, callbacks, loading, message buffers | `ln_version`, `ln_hasAdvancedStats` |
| `enc_csv.c`, `enc_syslog.c`, `enc_xml.c` | all | out of memory |
| `lognormalizer.c` | all (`getopt` as in the GNU C library) | what `-v` and complaints send to stderr; two streams for one file |
| `v1_ptree.c` | tree construction, splitting, fields, search, `ln_iptablesParser`, unparsed field, `ln_v1_normalize` | statistics, `ln_displayPTree`, dot graphs |
| `v1_samp.c` | rule texts, field descriptions, tags, annotations, prefixes, reading of lines | the byte behind the text which line 131 may read (its value has no effect), error messages |
| `v1_parser.c` | all field types with their constructors and contexts | `regex` (off by default), files which descend into themselves, destructors |

Simplifications made on purpose (each is repeated at the definition):
* recursion and loops without an a-priori bound take `fuel`; the theorems say that enough fuel exists
  (C07, C18, C53, C64) or hold for every fuel;
* memory is a heap of graph nodes; text buffers are lists. Where the C code reads a buffer by index
  the model has an explicit out-of-bounds outcome;
* comparing serialised configurations is comparing JSON values;
* 32 bit and 64 bit arithmetic is explicit where it can overflow.

## 5. Layout

`Model/Basic` (bytes, JSON, results), `ParseBasic`/`ParseMore` (parser.c), `Pdag` (search), `Annot`, `Ctor`
(constructors), `Build` (graph), `Samp` (loader), `Enc`, `Api`, `Tool`, `V1` (v1_ptree.c), `V1Parse` (v1_parser.c), `V1Samp` (v1_samp.c, constructors). `Spec/*` holds the notions used
in statements: what a rule matching a message means (`Spec/Match`), the syntax of each field type
(`Spec/Fields`, `Dates`, `Struct`, `Addr`, ...), histories of API calls, encoders' inverses.
`Props/Examples` has the concrete rulebases for the non-vacuity examples.

## 6. Axioms

`#print axioms` of every theorem in `MANIFEST.json` gives a subset of `propext`, `Classical.choice`, `Quot.sound`.
Concrete evaluations use `decide` (kernel evaluation, `decide +kernel`), which adds no axiom.

## 7. Testing the theorems against wrong programs

`seeded/LOG.jsonl` has one line for each edit of a scratch copy of the model: definition, edit, claim
broken, theorems which no longer hold (determined by replacing each proof which fails and
asking Lean which theorems of `MANIFEST.json` depend on such a proof), and theorems tightened as a result.

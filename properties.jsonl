{"id": "C01", "title": "A reported match is a real match", "statement": "If ln_normalize returns success for a message, then the loaded rulebase contains a rule whose fields, applied one after the other from the first byte, each accept their part of the message and together consume the whole message; the field values in the result are exactly those the fields extracted along that rule.", "quantifier": "all rulebases, all messages, all parser behaviours", "why_tests_cant": "The claim ranges over every rulebase graph and every message; a unit test only checks a handful of rules on a handful of lines.", "anchors": ["src/pdag.c:ln_normalizeRec", "src/pdag.c:ln_normalize", "src/pdag.c:tryParser"]}
{"id": "C02", "title": "A matching rule is always found", "statement": "If some rule of the rulebase matches the message (its fields, each parsing deterministically at its position, consume the whole message) then ln_normalize succeeds; backtracking never loses a match.", "quantifier": "all rulebases, all messages, all alternatives at all nodes", "why_tests_cant": "Completeness of a backtracking search quantifies over every path in every graph.", "anchors": ["src/pdag.c:ln_normalizeRec", "src/pdag.c:tryParser"]}
{"id": "C03", "title": "The highest-priority alternative wins", "statement": "When several rules match a message, the one selected is the first in lexicographic order of field priority (user priority first, then parser-type priority) at each branching point.", "quantifier": "all rulebases, all messages, all priority assignments", "why_tests_cant": "Requires comparing the result with every other matching path of every rulebase.", "anchors": ["src/pdag.c:ln_normalizeRec", "src/pdag.c:qsort_parserCmp", "src/pdag.c:ln_newParser", "src/pdag.c:ln_pdagComponentOptimize"]}
{"id": "C04", "title": "A non-matching message is reported intact", "statement": "When no rule matches, the result object consists of exactly the fields originalmsg (the complete message) and unparsed-data (a suffix of the message); no extracted field of a partially matching rule leaks into the result.", "quantifier": "all rulebases, all messages", "why_tests_cant": "Leakage can happen on any backtracked path; tests only exercise some paths.", "anchors": ["src/pdag.c:addUnparsedField", "src/pdag.c:ln_normalize", "src/pdag.c:ln_normalizeRec"]}
{"id": "C05", "title": "unparsed-data starts at the furthest position reached", "statement": "When no rule matches, unparsed-data is the message from the furthest byte position that any sequence of field parsers starting at the root of the rulebase could reach.", "quantifier": "all rulebases, all messages", "why_tests_cant": "A maximum over all partial paths of an arbitrary graph.", "anchors": ["src/pdag.c:ln_normalizeRec", "src/pdag.c:addUnparsedField"]}
{"id": "C06", "title": "Normalising never reads outside the message", "statement": "For every rulebase that loads and every message buffer, ln_normalize performs no out-of-bounds read, null dereference, use of uninitialised memory or signed overflow.", "quantifier": "all rulebases accepted by the loader, all byte strings as messages", "why_tests_cant": "Memory safety must hold for all (attacker controlled) messages; absence of a crash on samples says nothing.", "anchors": ["src/parser.c:ln_v2_parse*", "src/pdag.c:ln_normalizeRec", "src/pdag.c:tryParser", "src/pdag.c:fixJSON", "src/pdag.c:addUnparsedField"]}
{"id": "C07", "title": "Normalising always terminates", "statement": "For every loaded rulebase and every message ln_normalize returns.", "quantifier": "all rulebases, all messages", "why_tests_cant": "Non-termination can not be observed by a finite test and must be excluded for every rulebase.", "anchors": ["src/pdag.c:ln_normalizeRec", "src/parser.c:ln_v2_parseRepeat", "src/pdag.c:tryParser"]}
{"id": "C08", "title": "The result of a message does not depend on messages normalised before", "statement": "Normalising is read-only with respect to the rulebase: after any history of ln_normalize calls, the result for a message is what a freshly loaded context would give.", "quantifier": "all rulebases, all finite histories of messages", "why_tests_cant": "Ranges over all histories.", "anchors": ["src/pdag.c:ln_normalize", "src/pdag.c:ln_normalizeRec", "src/pdag.c:tryParser"]}
{"id": "C09", "title": "Fields named '-' (or unnamed) never show up", "statement": "A field whose name is '-' or missing is matched but contributes nothing to the result.", "quantifier": "all rulebases, parsers, messages, prior result contents", "why_tests_cant": "Must hold for every parser type and every value.", "anchors": ["src/pdag.c:fixJSON", "src/pdag.c:ln_newParser"]}
{"id": "C10", "title": "'.' and '..' fields are folded into the parent as documented", "statement": "A field named '.' whose value is an object has its members merged in the enclosing object; a compound value whose single member is called '..' is replaced by that member's value; all other named fields are added under their name with the value unchanged.", "quantifier": "all field names, all JSON values, all enclosing objects", "why_tests_cant": "Ranges over all JSON values.", "anchors": ["src/pdag.c:fixJSON"]}
{"id": "C11", "title": "A matched rule's tags are delivered as event.tags", "statement": "If the rule that matched carries tags, the result contains event.tags with exactly these tags in order; if it carries none, event.tags is not created from tags.", "quantifier": "all rulebases, all messages", "why_tests_cant": "Depends on which terminal node is reported for every path through every graph.", "anchors": ["src/pdag.c:ln_normalize", "src/pdag.c:ln_normalizeRec", "src/samp.c:processTags", "src/samp.c:addSampToTree"]}
{"id": "C12", "title": "Annotations add their fields exactly to events with the annotated tag", "statement": "After a match, for every tag of the event that has annotations, each '+' operation's field is present with one of the values configured for this name; events without annotated tags are unchanged, and fields not named in an annotation for one of the event's tags are never touched.", "quantifier": "all annotation sets, all tag lists, all event contents", "why_tests_cant": "Ranges over all annotation sets and events.", "anchors": ["src/annot.c:ln_annotate", "src/annot.c:ln_annotateEventWithTag", "src/annot.c:ln_addAnnotToSet", "src/annot.c:ln_combineAnnot"]}
{"id": "C13", "title": "Rule metadata describes the matched rule", "statement": "With LN_CTXOPT_ADD_RULE the result carries metadata.rule.mockup, the concatenation in rule order of the literal text (verbatim) and %name:type% for each other field of the matched rule; with LN_CTXOPT_ADD_RULE_LOCATION it carries file and line of the rule that matched. Without the options no metadata is added.", "quantifier": "all option sets, rulebases, messages", "why_tests_cant": "The string is built backwards, in pieces, while the recursion unwinds; correctness is an invariant over all paths.", "anchors": ["src/pdag.c:addRuleMetadata", "src/pdag.c:add_rule_to_mockup", "src/pdag.c:add_str_reversed", "src/pdag.c:strrev"]}
{"id": "C14", "title": "Context options accumulate and only add to the result", "statement": "ln_setCtxOpts ORs options together, so any sequence of calls is equivalent to one call with the union in any order; options never change whether a message matches nor any extracted field.", "quantifier": "all option sequences, all rulebases, all messages", "why_tests_cant": "Ranges over call sequences and messages.", "anchors": ["src/liblognorm.c:ln_setCtxOpts", "src/pdag.c:ln_normalize"]}
{"id": "C15", "title": "User-defined types consume exactly what their definition matches", "statement": "A field of user-defined type @t consumes exactly the text matched by one of the definitions of @t, starting at the field position, and its value is the object of the fields extracted there.", "quantifier": "all type definitions, rulebases, messages", "why_tests_cant": "Interaction of nested matching with shared position state over all prior histories of the search.", "anchors": ["src/pdag.c:tryParser", "src/pdag.c:ln_normalizeRec"]}
{"id": "C16", "title": "repeat yields the list of its elements", "statement": "A repeat field matches element (separator element)*, consuming exactly this text, and its value is the array of the element values in message order.", "quantifier": "all element/separator definitions, all messages", "why_tests_cant": "Unbounded iteration.", "anchors": ["src/parser.c:ln_v2_parseRepeat"]}
{"id": "C17", "title": "Optimising a rulebase does not change its meaning", "statement": "The reorganisation of the parse graph performed after loading (sorting by priority, merging chains of literals) changes neither which messages match nor the extracted fields, tags or mockup.", "quantifier": "all parse graphs, all messages", "why_tests_cant": "A semantics-preservation claim over all graphs.", "anchors": ["src/pdag.c:ln_pdagOptimize", "src/pdag.c:ln_pdagComponentOptimize", "src/pdag.c:optLitPathCompact", "src/parser.c:ln_combineData_Literal"]}
{"id": "C18", "title": "Parse-graph memory is managed correctly", "statement": "Building, optimising and deleting a parse graph never frees a node twice or uses a freed node, and deleting the context frees every node.", "quantifier": "all sequences of rule additions followed by optimise and delete", "why_tests_cant": "Ranges over all rule histories and sharing patterns.", "anchors": ["src/pdag.c:ln_pdagDelete", "src/pdag.c:pdagDeletePrs", "src/pdag.c:ln_pdagAddParserInstance", "src/pdag.c:optLitPathCompact"]}
{"id": "C19", "title": "Adding rules never breaks previously loaded rules", "statement": "A message which matches some rule keeps matching after more rules are loaded (in the same or a further ln_loadSamples call), and it is matched by the rules of the union.", "quantifier": "all rulebases, all additions, all messages", "why_tests_cant": "Ranges over all pairs of rulebases.", "anchors": ["src/pdag.c:ln_pdagAddParserInstance", "src/pdag.c:ln_pdagAddParserInternal", "src/samp.c:addSampToTree", "src/liblognorm.c:ln_loadSamples"]}
{"id": "C20", "title": "number", "statement": "A number field matches exactly a maximal non-empty run of decimal digits whose value does not exceed the optional maxval; its value is the text, or the number itself if format is number.", "quantifier": "all messages, positions and configurations", "why_tests_cant": "All digit strings of any length.", "anchors": ["src/parser.c:ln_v2_parseNumber", "src/parser.c:ln_constructNumber"]}
{"id": "C21", "title": "float", "statement": "A float field matches exactly the maximal text of the form [-]digits[.digits] (digits possibly empty) and yields it.", "quantifier": "all messages and positions", "why_tests_cant": "All strings.", "anchors": ["src/parser.c:ln_v2_parseFloat"]}
{"id": "C22", "title": "hexnumber", "statement": "A hexnumber field matches '0x' followed by hex digits up to a whitespace character, with value not exceeding maxval.", "quantifier": "all messages, positions, maxval", "why_tests_cant": "All digit strings including those that wrap.", "anchors": ["src/parser.c:ln_v2_parseHexNumber"]}
{"id": "C23", "title": "kernel-timestamp", "statement": "A kernel-timestamp field matches exactly '[' 5-12 digits '.' 6 digits ']' and consumes exactly this.", "quantifier": "all messages and positions", "why_tests_cant": "All strings.", "anchors": ["src/parser.c:ln_v2_parseKernelTimestamp"]}
{"id": "C24", "title": "whitespace", "statement": "A whitespace field matches exactly the maximal non-empty run of whitespace at its position.", "quantifier": "all messages and positions", "why_tests_cant": "All strings.", "anchors": ["src/parser.c:ln_v2_parseWhitespace"]}
{"id": "C25", "title": "word, alpha", "statement": "A word field matches exactly the maximal non-empty run of non-space bytes; an alpha field the maximal non-empty run of letters.", "quantifier": "all messages and positions", "why_tests_cant": "All strings.", "anchors": ["src/parser.c:ln_v2_parseWord", "src/parser.c:ln_v2_parseAlpha"]}
{"id": "C26", "title": "string-to", "statement": "A string-to field consumes the shortest non-empty prefix that is followed by the given string, and fails iff there is none.", "quantifier": "all messages, positions, search strings", "why_tests_cant": "Search loop over all pairs of strings.", "anchors": ["src/parser.c:ln_v2_parseStringTo"]}
{"id": "C27", "title": "char-to, char-sep", "statement": "A char-to field consumes the bytes up to the first occurrence of one of the given characters, which must exist and not be the first byte; char-sep the same but also matches empty and up to the end of the message.", "quantifier": "all messages, positions, character sets", "why_tests_cant": "All strings and sets.", "anchors": ["src/parser.c:ln_v2_parseCharTo", "src/parser.c:ln_v2_parseCharSeparated"]}
{"id": "C28", "title": "literal", "statement": "A literal matches exactly its text.", "quantifier": "all messages, positions, literals", "why_tests_cant": "All strings.", "anchors": ["src/parser.c:ln_v2_parseLiteral"]}
{"id": "C29", "title": "rest", "statement": "A rest field always matches and consumes everything up to the end of the message.", "quantifier": "all messages and positions", "why_tests_cant": "All strings.", "anchors": ["src/parser.c:ln_v2_parseRest"]}
{"id": "C30", "title": "quoted-string, op-quoted-string", "statement": "A quoted-string matches from a double quote to the next one, and yields the text between; op-quoted-string in addition matches a non-empty run of non-space bytes when not quoted. Quotes are not part of the value.", "quantifier": "all messages and positions", "why_tests_cant": "All strings.", "anchors": ["src/parser.c:ln_v2_parseQuotedString", "src/parser.c:ln_v2_parseOpQuotedString"]}
{"id": "C31", "title": "date-iso", "statement": "A date-iso field matches exactly YYYY-MM-DD with month 01-12 and day 01-31.", "quantifier": "all messages and positions", "why_tests_cant": "All strings.", "anchors": ["src/parser.c:ln_v2_parseISODate"]}
{"id": "C32", "title": "time-24hr, time-12hr", "statement": "time-24hr matches exactly hh:mm:ss with hh 00-23, mm and ss 00-59; time-12hr the same with hours 00-12.", "quantifier": "all messages and positions", "why_tests_cant": "All strings.", "anchors": ["src/parser.c:ln_v2_parseTime24hr", "src/parser.c:ln_v2_parseTime12hr"]}
{"id": "C33", "title": "duration", "statement": "duration matches exactly h:mm:ss or hh:mm:ss with mm, ss 00-59.", "quantifier": "all messages and positions", "why_tests_cant": "All strings.", "anchors": ["src/parser.c:ln_v2_parseDuration"]}
{"id": "C34", "title": "ipv4", "statement": "ipv4 matches four dot-separated decimal octets, each of 1-3 digits with value at most 255.", "quantifier": "all messages and positions", "why_tests_cant": "All strings.", "anchors": ["src/parser.c:ln_v2_parseIPv4", "src/parser.c:chkIPv4AddrByte"]}
{"id": "C35", "title": "ipv6", "statement": "ipv6 accepts only valid RFC4291 text forms of IPv6 addresses, and all of them.", "quantifier": "all messages and positions", "why_tests_cant": "All strings.", "anchors": ["src/parser.c:ln_v2_parseIPv6", "src/parser.c:skipIPv6AddrBlock"]}
{"id": "C36", "title": "mac48", "statement": "mac48 matches exactly six two-digit hex groups joined uniformly by ':' or uniformly by '-'.", "quantifier": "all messages and positions", "why_tests_cant": "All strings.", "anchors": ["src/parser.c:ln_v2_parseMAC48"]}
{"id": "C37", "title": "cisco-interface-spec", "statement": "cisco-interface-spec matches [interface:]ip/port [SP](ip2/port2)[[SP](username)] and extracts interface, ip, port, ip2, port2 and user accordingly.", "quantifier": "all messages and positions", "why_tests_cant": "All strings.", "anchors": ["src/parser.c:ln_v2_parseCiscoInterfaceSpec"]}
{"id": "C38", "title": "json", "statement": "A json field matches a JSON object or array at its position, with trailing spaces skipped, and yields its parsed value.", "quantifier": "all messages and positions, all JSON values", "why_tests_cant": "All JSON documents.", "anchors": ["src/parser.c:ln_v2_parseJSON"]}
{"id": "C39", "title": "cee-syslog", "statement": "A cee-syslog field matches '@cee:' followed by optional spaces and a JSON object reaching to the end of the message, wherever in the message it starts.", "quantifier": "all messages and positions", "why_tests_cant": "All positions.", "anchors": ["src/parser.c:ln_v2_parseCEESyslog"]}
{"id": "C40", "title": "name-value-list", "statement": "A name-value-list field consumes a sequence of name=value pairs with separators and yields an object with exactly those pairs in order; what it returns as consumed never exceeds the message.", "quantifier": "all messages, positions, configurations", "why_tests_cant": "Unbounded iteration.", "anchors": ["src/parser.c:ln_v2_parseNameValue", "src/parser.c:parseNameValue"]}
{"id": "C41", "title": "v2-iptables", "statement": "A v2-iptables field matches at least two NAME=value or NAME fields separated by single spaces up to the end of the message, and yields exactly these.", "quantifier": "all messages and positions", "why_tests_cant": "Unbounded iteration.", "anchors": ["src/parser.c:ln_v2_parsev2IPTables", "src/parser.c:parseIPTablesNameValue"]}
{"id": "C42", "title": "cef", "statement": "A cef field yields header fields with '\\\\' and '|' unescaped and extension values with '=' and '\\\\' unescaped; encoding a list of header fields and extensions with the CEF escaping rules and parsing it gives the list back.", "quantifier": "all header values and extension lists", "why_tests_cant": "Round trip over all strings.", "anchors": ["src/parser.c:ln_v2_parseCEF", "src/parser.c:cefGetHdrField", "src/parser.c:cefParseExtensions"]}
{"id": "C43", "title": "checkpoint-lea", "statement": "A checkpoint-lea field yields exactly the 'name: value;' pairs of the text it consumes.", "quantifier": "all messages, positions, terminators", "why_tests_cant": "Unbounded iteration.", "anchors": ["src/parser.c:ln_v2_parseCheckpointLEA"]}
{"id": "C44", "title": "string", "statement": "A string field consumes the maximal run of permitted characters with optional quoting as configured, and yields the text with quotes removed and quote escapes resolved.", "quantifier": "all configurations, messages, positions", "why_tests_cant": "All strings times all configurations.", "anchors": ["src/parser.c:ln_v2_parseString"]}
{"id": "C45", "title": "date-rfc3164, date-rfc5424", "statement": "The date parsers accept exactly the timestamp syntax with month, day, hour, minute, second (and offset) in range, and yield the matched text.", "quantifier": "all messages and positions", "why_tests_cant": "All strings.", "anchors": ["src/parser.c:ln_v2_parseRFC3164Date", "src/parser.c:ln_v2_parseRFC5424Date", "src/parser.c:hParseInt"]}
{"id": "C46", "title": "Timestamps convert to the right UNIX time", "statement": "With format timestamp-unix(-ms) the value of a date-rfc5424 field is the number of seconds (milliseconds) since 1970-01-01 UTC of the instant it denotes in the proleptic Gregorian calendar including UTC offset and sub-second truncation.", "quantifier": "all valid dates 1970-2100, all offsets", "why_tests_cant": "Over 4e9 seconds, times offsets; leap years.", "anchors": ["src/parser.c:syslogTime2time_t", "src/parser.c:ln_v2_parseRFC5424Date"]}
{"id": "C47", "title": "No parser claims more than the rest of the message", "statement": "Whenever a parser matches at a position it consumes at most the rest of the message, and a failed parser consumes nothing as far as the search is concerned.", "quantifier": "all parsers, configurations, messages, positions", "why_tests_cant": "A bound over every parser on every message.", "anchors": ["src/parser.c:ln_v2_parse*", "src/pdag.c:tryParser"]}
{"id": "C48", "title": "Literal text in rules matches itself", "statement": "In a rule, literal text matches itself byte for byte, with '%%' denoting a single percent sign: a rule without fields matches exactly the one message equal to its unescaped text.", "quantifier": "all literal rule texts, all messages", "why_tests_cant": "Loader + matcher round trip over all strings.", "anchors": ["src/samp.c:parseLiteral", "src/samp.c:addSampToTree", "src/samp.c:processRule", "src/parser.c:ln_v2_parseLiteral"]}
{"id": "C49", "title": "Field descriptors are decoded as documented", "statement": "%name:type:extra% and %name:type{json}% declare a field with exactly this name, type (blanks stripped) and parameters, and the text after the closing percent sign is literal.", "quantifier": "all names, types, extra data", "why_tests_cant": "All strings.", "anchors": ["src/samp.c:addFieldDescr", "src/samp.c:ln_parseLegacyFieldDescr"]}
{"id": "C50", "title": "Rule tags are decoded as documented", "statement": "rule=t1,t2,...: attaches exactly the list of tags before the first colon.", "quantifier": "all tag lists", "why_tests_cant": "All strings.", "anchors": ["src/samp.c:processTags"]}
{"id": "C51", "title": "prefix= and extendprefix= compose", "statement": "prefix=P replaces and extendprefix=E extends the common prefix; a rule R loaded under the prefix is the rule prefix++R.", "quantifier": "all sequences of prefix/extendprefix/rule lines", "why_tests_cant": "Histories of rulebase lines.", "anchors": ["src/samp.c:ln_processSamp", "src/samp.c:extendPrefix", "src/samp.c:getPrefix", "src/samp.c:processRule"]}
{"id": "C52", "title": "Comments and empty lines are ignored", "statement": "Lines starting with '#' and empty lines do not influence the loaded rulebase; lines outside of field descriptors are separated by newlines only.", "quantifier": "all rulebase texts", "why_tests_cant": "All texts.", "anchors": ["src/samp.c:ln_sampRead", "src/samp.c:ln_processSamp"]}
{"id": "C53", "title": "Loading a rulebase always terminates and reports the line kinds it does not understand", "statement": "For all rulebase texts loading terminates.", "quantifier": "all rulebase texts", "why_tests_cant": "All texts.", "anchors": ["src/samp.c:ln_sampRead", "src/samp.c:processAnnotate", "src/samp.c:ln_processSamp"]}
{"id": "C54", "title": "Loading from a string equals loading from a file with that content", "statement": "ln_loadSamplesFromString(ctx,s) produces the same rulebase as ln_loadSamples of a file with content s.", "quantifier": "all contents", "why_tests_cant": "All texts.", "anchors": ["src/samp.c:ln_sampRead", "src/samp.c:ln_sampReadFile", "src/liblognorm.c:ln_loadSamplesFromString"]}
{"id": "C55", "title": "Duplicate rules are harmless", "statement": "Loading the same rule twice has the effect of loading it once.", "quantifier": "all rules", "why_tests_cant": "All rules and rulebases.", "anchors": ["src/samp.c:addSampToTree", "src/pdag.c:ln_pdagAddParserInstance"]}
{"id": "C56", "title": "CSV encoding is unambiguous", "statement": "Encoding an event as CSV produces for each requested field in order a quoted value in which quotes and control characters are escaped; the field values can be recovered from the output.", "quantifier": "all events and field lists", "why_tests_cant": "Injectivity over all strings.", "anchors": ["src/enc_csv.c:ln_fmtEventToCSV", "src/enc_csv.c:ln_addValue_CSV"]}
{"id": "C57", "title": "RFC5424 structured-data encoding is unambiguous", "statement": "Encoding as RFC5424 structured data escapes '\"', ']' and '\\\\' in values so that every parameter value can be recovered.", "quantifier": "all events", "why_tests_cant": "Injectivity over all strings.", "anchors": ["src/enc_syslog.c:ln_addValue_Syslog", "src/enc_syslog.c:ln_fmtEventToRFC5424"]}
{"id": "C58", "title": "XML encoding never lets data become markup", "statement": "In the XML output the characters '<', '&' in field values are always escaped and values can be recovered.", "quantifier": "all events", "why_tests_cant": "Injectivity over all strings.", "anchors": ["src/enc_xml.c:ln_addValue_XML", "src/enc_xml.c:ln_fmtEventToXML"]}
{"id": "C59", "title": "API calls reject foreign handles and clean up once", "statement": "All API functions taking a context return LN_BADCONFIG-class errors for an object which is not a live context, and ln_exitCtx leaves nothing behind.", "quantifier": "all call sequences", "why_tests_cant": "Histories of API calls.", "anchors": ["src/liblognorm.c:CHECK_CTX", "src/liblognorm.c:ln_initCtx", "src/liblognorm.c:ln_exitCtx"]}
{"id": "C60", "title": "Error and debug callbacks get the cookie they were registered with", "statement": "Each message handed to the error (debug) callback is delivered with the cookie registered by ln_setErrMsgCB (ln_setDebugCB).", "quantifier": "all call sequences", "why_tests_cant": "Histories of API calls.", "anchors": ["src/liblognorm.c:ln_setErrMsgCB", "src/liblognorm.c:ln_setDebugCB", "src/lognorm.c:ln_errprintf", "src/lognorm.c:ln_dbgprintf"]}
{"id": "C61", "title": "lognormalizer processes every line of its input", "statement": "The command line tool hands each input line, without line terminator, to ln_normalize, including a last line without terminator.", "quantifier": "all input streams", "why_tests_cant": "All streams.", "anchors": ["src/lognormalizer.c:read_line", "src/lognormalizer.c:normalize"]}
{"id": "C62", "title": "A user-defined type accumulates its definitions", "statement": "Several type=@t: lines define alternatives; which definitions a field of type @t can use depends only on the set of lines loaded.", "quantifier": "all sequences of type and rule lines", "why_tests_cant": "Histories of rulebase lines.", "anchors": ["src/pdag.c:ln_pdagFindType", "src/samp.c:processType"]}
{"id": "C63", "title": "Statistics counters count calls", "statement": "The usage counters of the graph increase monotonically: a node's 'called' counter counts visits, and its 'backtracked' counter counts visits that failed, so backtracked <= called.", "quantifier": "all histories", "why_tests_cant": "All histories.", "anchors": ["src/pdag.c:ln_normalizeRec", "src/pdag.c:ln_fullPdagStats"]}
{"id": "C64", "title": "v1 engine: a reported match is a real match and no rule is lost", "statement": "For rulebases in v1 format ln_normalize finds exactly the rules which match under the v1 tree search.", "quantifier": "all v1 trees and messages", "why_tests_cant": "All trees.", "anchors": ["src/v1_ptree.c:ln_v1_normalizeRec", "src/v1_ptree.c:ln_v1_normalize"]}
{"id": "C65", "title": "v1 engine: adding a sample preserves those already there", "statement": "Adding a rule to the v1 tree (with splitting of common prefixes) makes exactly the new rule's language available in addition to the old ones.", "quantifier": "all v1 trees, all new rules", "why_tests_cant": "All trees; prefix splitting is index arithmetic.", "anchors": ["src/v1_ptree.c:ln_buildPTree", "src/v1_ptree.c:splitTree", "src/v1_ptree.c:setPrefix", "src/v1_ptree.c:ln_addFDescrToPTree"]}
{"id": "C66", "title": "Loading arbitrary text keeps the parse graph intact", "statement": "Whatever texts and files are loaded, in whatever order and however malformed, the loader never uses freed memory of the graph, and a context can afterwards be deleted completely.", "quantifier": "all sequences of load calls, all texts", "why_tests_cant": "All texts and histories of calls.", "anchors": ["src/samp.c:ln_sampLoad", "src/samp.c:ln_sampLoadFromString", "src/samp.c:ln_processSamp", "src/pdag.c:ln_pdagDelete"]}
{"id": "C67", "title": "Message lengths handed to callbacks", "statement": "The length handed to the error or debug callback together with a message is the length of that message, and the message fits the buffer it is in.", "quantifier": "all message texts, error codes, file names and line numbers", "why_tests_cant": "All lengths of texts.", "anchors": ["src/lognorm.c:ln_errprintf", "src/lognorm.c:ln_dbgprintf"]}
{"id": "C68", "title": "Contexts are independent", "statement": "What a program observes of one context is determined by the calls for this context alone; using further contexts in between does not change it.", "quantifier": "all histories of API calls for any number of contexts", "why_tests_cant": "Histories of API calls.", "anchors": ["src/liblognorm.c:ln_initCtx", "src/liblognorm.c:ln_setCtxOpts", "src/liblognorm.c:ln_loadSamples", "src/pdag.c:ln_normalize"]}
{"id": "C69", "title": "lognormalizer selects and counts records as documented", "statement": "With -p exactly the messages matched by a rule are printed, with -P exactly the others, with -t those with the tag; the summary counts every input line once, in the right category; -e raw prints the selected messages unchanged and in order.", "quantifier": "all input streams, rulebases and option combinations", "why_tests_cant": "All streams and rulebases.", "anchors": ["src/lognormalizer.c:normalize", "src/lognormalizer.c:outputEvent", "src/lognormalizer.c:eventHasTag"]}
{"id": "C70", "title": "v1 engine: what is delivered if no rule matches", "statement": "If no v1 rule matches, the event contains what the caller passed, the whole message as originalmsg and an end of it as unparsed-data; nothing a failed rule extracted remains, and no memory outside the message is read.", "quantifier": "all v1 rulebases, all messages", "why_tests_cant": "All rulebases and messages; the failed attempts leave traces only on certain paths.", "anchors": ["src/v1_ptree.c:ln_v1_normalize", "src/v1_ptree.c:addUnparsedField", "src/v1_ptree.c:ln_iptablesParser"]}
{"id": "C71", "title": "v1 field types match exactly their syntax", "statement": "A field of a version 1 rule matches exactly the texts of its type's documented syntax at the current position, and delivers the matched text (for quoted strings without quotes, for structured types the decoded structure).", "quantifier": "all v1 field types without nested rules, all messages and positions", "why_tests_cant": "All strings.", "anchors": ["src/v1_parser.c:ln_parse*", "src/v1_samp.c:ln_v1_parseFieldDescr"]}
{"id": "C72", "title": "v1 field parsers stay inside the message", "statement": "Each version 1 field parser terminates, consumes at most the rest of the message, reads nothing outside it and does nothing undefined, whatever the message and the extra data of the field.", "quantifier": "all v1 field types, extra data, messages, positions", "why_tests_cant": "A bound over every parser on every message.", "anchors": ["src/v1_parser.c:ln_parse*"]}
{"id": "C73", "title": "v1 field types which apply other types", "statement": "interpret, suffixed, named_suffixed and tokenized match what the inner type matches (followed by a suffix, repeated with separators) and deliver the interpreted value, value and suffix, or list of values; descent and recursive match what the rules of the other file match and deliver its fields.", "quantifier": "all nestings of v1 field types, all messages and positions", "why_tests_cant": "Unbounded nesting and lists over all strings.", "anchors": ["src/v1_parser.c:ln_parseTokenized", "src/v1_parser.c:ln_parseInterpret", "src/v1_parser.c:ln_parseSuffixed", "src/v1_parser.c:ln_parseRecursive", "src/v1_parser.c:generate_context_with_field_as_prefix"]}
{"id": "C74", "title": "v1 rulebases, from text to event", "statement": "A version 1 rulebase text made of comments, prefix=, extendprefix=, rule= and annotate= lines loads; normalising a message with it ends, and reports a match only if one of its rules (with the prefix in force) makes up the whole message, delivering the values its fields have there, its tags and its annotations; a rule which makes up the message is not missed; without a match the event holds the message and its unparsed end.", "quantifier": "all rulebase texts made of well-formed lines, messages", "why_tests_cant": "The composition of line reader, rule lexer, type constructors, tree construction, search and field parsers has to agree for every text; tests try a handful of rulebases.", "anchors": ["src/v1_samp.c:ln_v1_sampRead", "src/v1_samp.c:ln_v1_processSamp", "src/v1_samp.c:processRule", "src/v1_samp.c:parseFieldDescr", "src/v1_samp.c:processAnnotate", "src/v1_ptree.c:ln_v1_normalize"]}
{"id": "C75", "title": "Field descriptions mean what they say", "statement": "A field described in a rule by its type and parameters (format, maxval, extradata, text, separator, assignator, terminator, quoting.*, matching.*) accepts exactly the texts the type with these parameters accepts, and delivers the value in the format asked for; it has the name given (none for '-'), and its priority is the one given (default 30000), with the specificity of the type deciding between equal ones.", "quantifier": "all field types, parameter objects, messages and positions", "why_tests_cant": "All parameter combinations and strings.", "anchors": ["src/parser.c:ln_construct*", "src/pdag.c:parser_lookup_table", "src/pdag.c:ln_newParser"]}
{"id": "C76", "title": "Rulebases, from text to event", "statement": "A rulebase text made of comments, prefix=, extendprefix=, rule= and annotate= lines loads, reporting exactly the lines of unknown kinds; normalising a message with it ends and reports a match if and only if one of its rules (with the prefix in force) makes up the whole message. The event has the values the fields of such a rule have there - of one which is first by the priorities of fields - its tags and annotations, and according to the options the message, the text of the rule and its line. If no rule matches, the event is the message and, as unparsed-data, what follows the last position up to which beginnings of rules make it up (where a run of literal text that rules share counts as a whole).", "quantifier": "all rulebase texts, all messages, all option sets", "why_tests_cant": "All rulebases and messages; composition of loading, optimising and searching.", "anchors": ["src/samp.c:ln_sampLoadFromString", "src/samp.c:ln_processSamp", "src/pdag.c:ln_pdagOptimize", "src/pdag.c:ln_normalize", "src/annot.c:ln_annotate"]}
{"id": "C77", "title": "Normalising depends only on the rulebases loaded and the options set", "statement": "Whatever was called before on this and on other contexts (callbacks, debugging, messages normalised), ln_normalize returns what it returns for a fresh context with the same rulebases loaded in the same order and all the options asked for so far.", "quantifier": "all histories of API calls for any number of contexts, all messages", "why_tests_cant": "Histories of API calls of any length.", "anchors": ["src/liblognorm.c:ln_initCtx", "src/liblognorm.c:ln_setCtxOpts", "src/liblognorm.c:ln_loadSamples", "src/liblognorm.c:ln_loadSamplesFromString", "src/pdag.c:ln_normalize"]}
{"id": "C78", "title": "Included files and broken lines", "statement": "Loading a rulebase from a string or a file has the effect of its lines in the order in which they stand, where the lines of an included file stand in the place of the include= line and a field description may be broken over several lines; each rule carries the name of the file it stands in and the number of its last line there; prefixes carry over between files; a field description (in a file) that does not end before the next rule= line is reported and only that line is dropped. Normalising with it gives what the lines say.", "quantifier": "all rulebases made of such lines, any number and nesting depth of files, all messages and options (in the scope of C76)", "why_tests_cant": "nesting, interleaving of files and positions of line breaks are unbounded, and the result depends on state carried between files", "anchors": ["src/samp.c:processInclude/ln_sampRead/ln_sampLoad/ln_sampLoadFromString/ln_sampCheckRunawayRule", "src/liblognorm.c:ln_loadSamples"]}
{"id": "C79", "title": "Rulebases with user-defined types, from text to event", "statement": "Loading a rulebase with user-defined types (also spread over included files) and normalising a message gives what the text says: a match is reported if and only if one of the rules makes up the whole message, where a field of a user-defined type is made up by one of the definitions of the type and has the object of the values of that definition as value; the event holds these values, the tags, annotations and metadata of the rule. Definitions may use other types; which of them are used, how often and how deeply nested does not matter. If no rule matches, unparsed-data starts at the last position up to which fields of the rules make up the message (a field of a user-defined type counts only as a whole).", "quantifier": "all rulebases of such lines whose types are defined before use and do not contain themselves, all messages for which rules and definitions are unambiguous, all options", "why_tests_cant": "derivations through nested types are of unbounded depth and breadth, and the result goes through lexing, building, optimising and searching", "anchors": ["src/samp.c:processType/processRule/ln_parseRuleDescr", "src/pdag.c:ln_pdagFindType/ln_newParser/ln_pdagAddParser/ln_pdagOptimize/ln_normalizeRec/tryParser/ln_normalize"]}
{"id": "C80", "title": "Rules with repeat fields, from text to event", "statement": "Loading a rulebase whose rules have repeat fields (nested to any depth, written in whatever order of members, with permitMismatchInParser or not) and normalising a message gives what the text says: a match is reported if and only if the fields of a rule take the message as a whole, where a repetition takes element, separator, element and so on as long as there is a separator; its value is the list of the values of its elements. Without permitMismatchInParser a missing element makes it fail; with it the separator is given back, and there may be no element at all.", "quantifier": "all rules with repeat fields, all messages on which repetitions make progress, all option sets", "why_tests_cant": "Unbounded nesting and lists over all strings; composition of loader, graph construction, optimiser and search.", "anchors": ["src/parser.c:PARSER_Parse(Repeat)", "src/parser.c:PARSER_Construct(Repeat)", "src/pdag.c:ln_pdagAddParser", "src/samp.c:ln_sampRead"]}
{"id": "C81", "title": "Rulebase files are found where documented", "statement": "ln_loadSamples and include= lines read the file of the name given; if there is none, the name is not absolute and LIBLOGNORM_RULEBASES is set, the file of this name in that directory. What is loaded is what would be loaded if these files had these names.", "quantifier": "all contents of the file system, all values of the variable, all names and nested includes, all states of a context", "why_tests_cant": "File systems, variables and nestings of includes are unbounded.", "anchors": ["src/samp.c:tryOpenRBFile", "src/samp.c:ln_sampLoad", "doc/configuration.rst"]}
{"id": "C82", "title": "Version 1 rulebases through the API", "statement": "After whatever history of calls in which one version 1 rulebase was loaded into a context, ln_normalize delivers for this context what the text of that rulebase says. Rules are added to those already loaded. A file of the other version is refused and changes nothing.", "quantifier": "all histories of API calls, all version 1 rulebases in the scope of C74, all messages", "why_tests_cant": "Histories and rulebases are unbounded.", "anchors": ["src/samp.c:doOldCruft", "src/v1_liblognorm.c:ln_v1_loadSamples", "src/liblognorm.c:ln_loadSamples", "src/pdag.c:ln_normalize", "src/liblognorm.h"]}
{"id": "C83", "title": "The statistics describe the rulebase loaded", "statement": "The report lists the user-defined types and, for each of them and for the rules, the number of nodes, of nodes at which a rule ends, of fields altogether and by type, how many nodes have how many fields, and the length of the longest path; the graphs of different types share nothing.", "quantifier": "all rulebases (types, alternatives, repetitions, any number of loads)", "why_tests_cant": "Rulebases are unbounded; the walk marks nodes and has to count each exactly once on graphs with shared nodes.", "anchors": ["src/pdag.c:ln_fullPdagStats", "src/pdag.c:ln_pdagStats", "src/pdag.c:ln_pdagStatsRec", "src/pdag.c:ln_pdagClearVisited"]}
{"id": "C84", "title": "The DOT files show the graph", "statement": "ln_genDot writes a well-formed digraph with exactly one statement for each node that can be reached (bold if nothing follows it) and one for each of its fields, labelled with type and literal text; with usage counts, the same restricted to the nodes used, with their counters. No label contains a quote or backslash.", "quantifier": "all rulebases, all usage counts", "why_tests_cant": "Rulebases are unbounded; shared nodes must be written once.", "anchors": ["src/pdag.c:ln_genDotPDAGGraph", "src/pdag.c:ln_genDotPDAGGraphRec", "src/pdag.c:ln_genStatsDotPDAGGraph", "src/pdag.c:ln_genStatsDotPDAGGraphRec"]}
{"id": "C85", "title": "The usage report names rules", "statement": "The usage statistics list, with their counters, exactly the nodes that have been used, each under the text of the rules up to there (literals as they stand, other fields as %name:type%).", "quantifier": "all rulebases, all usage counts", "why_tests_cant": "Rulebases are unbounded; names are repaired when a node is reached on several ways.", "anchors": ["src/pdag.c:ln_pdagStatsExtended", "src/pdag.c:ln_pdagComponentSetIDs", "src/pdag.c:fixComponentID", "src/pdag.c:deleteComponentID"]}
{"id": "C86", "title": "Command line of lognormalizer", "statement": "However its options are written (grouped flags, attached or separate arguments, operands in between), lognormalizer runs with exactly the options given: unknown options, missing arguments, unwritable output files, unknown -o names, a missing or unloadable rulebase or mixing -r and -R end it with exit code 1 and without output; otherwise it loads the rulebase named, normalises the messages with these settings, writes the reports of that run to the places named by -s, -S, -x and -d, and prints the lines of -U, -t and -H at the end.", "quantifier": "all command lines, all rulebases, all inputs", "why_tests_cant": "Command lines are unbounded lists of unbounded texts, and options interact", "anchors": ["src/lognormalizer.c:main", "src/lognormalizer.c:handle_generic_option", "src/lognormalizer.c:genDOT", "src/lognormalizer.c:normalize"]}
{"id": "C87", "title": "lognormalizer from files to output", "statement": "For a rulebase file (or text) and a log of terminated lines, lognormalizer prints for each line, in order, exactly the event which the rules as written yield for it, or the line itself with -e raw, selected by -p, -P and -t; the exit code is 0 and the summary counts are right.", "quantifier": "all rulebases of version 2, all logs, all command lines", "why_tests_cant": "Rulebases, logs and command lines are unbounded; the statement spans command line, loader, optimiser, search and encoders", "anchors": ["src/lognormalizer.c:main", "src/lognormalizer.c:normalize", "src/lognormalizer.c:read_line", "src/samp.c:ln_sampLoad", "src/pdag.c:ln_normalize"]}
{"id": "C88", "title": "Alternatives mean one of the fields they offer", "statement": "Loading a version 2 rule base whose rules contain `alternative` parts between single fields and normalising a message: the message is reported as matched if and only if some rule makes it up with some choice of one field from each of its alternatives; the event is that of such a choice (the first one by priority), with the tags, annotations and location of the rule; otherwise the event carries the message and what is left of it behind the position up to which a beginning of such a choice makes it up.", "quantifier": "all rule bases (text, with prefixes, annotations, includes, broken lines) with any number and size of alternatives whose alternatives keep apart, all messages, all options", "why_tests_cant": "an alternative multiplies the paths through the shared rule graph: the number of choices is exponential in the number of alternatives, and sharing between rules decides which combinations exist", "anchors": ["src/pdag.c: ln_pdagAddParser, ln_pdagAddParsers, ln_pdagAddParserInternal, ln_pdagAddParserInstance", "src/samp.c: ln_sampLoadFromString"]}

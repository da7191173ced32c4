{"id": "C01", "title": "Output lines are at most 75 octets", "statement": "Every physical line Encode sends to the writer (text between CRLFs, continuation space included) is at most 75 octets long, for every calendar and however the encoder splits its output into individual writes.", "quantifier": "all sequences of writes of well-formed UTF-8 text whose carriage returns are each followed by a line feed; all column positions", "why_tests_cant": "Line-length violations only show for particular alignments of multi-octet characters, write boundaries and column positions; the space of alignments is unbounded.", "anchors": ["folder.go:folder.Write", "encoder.go:Encode"]}
{"id": "C02", "title": "Folding never splits a character", "statement": "A fold (CRLF SPACE) is only ever inserted between two whole UTF-8 encoded characters and never between a CR and its LF, so each physical line of valid text is itself valid UTF-8.", "quantifier": "all UTF-8 strings, all write boundaries", "why_tests_cant": "Depends on the octet column at which each multi-octet character lands; unit tests sample a few alignments.", "anchors": ["folder.go:folder.Write"]}
{"id": "C03", "title": "Folding is transparent", "statement": "Deleting every CRLF SPACE the encoder inserted gives back exactly the octets that were handed to it; if the text contains no CRLF SPACE of its own, deleting all CRLF SPACE sequences from the output does this.", "quantifier": "all octet strings handed to the folding writer, in any number of writes", "why_tests_cant": "Round-trip law over all inputs.", "anchors": ["folder.go:folder.Write", "unfolder.go:unfolder.Read"]}
{"id": "C04", "title": "Output does not depend on write granularity", "statement": "The octets that reach the underlying writer depend only on the concatenation of the pieces written by the encoder, not on how that text was cut into writes (cuts between characters).", "quantifier": "all texts and all ways of cutting them at character boundaries", "why_tests_cant": "There are exponentially many cuts.", "anchors": ["folder.go:folder.Write", "folder.go:folder.WriteString"]}
{"id": "C05", "title": "A failing writer receives a prefix and the error is reported", "statement": "If the underlying writer starts failing at any call after accepting any number of octets, what it received is a prefix of the complete output, no further write is attempted after the failing one, and Encode returns that writer's error. If the writer never fails Encode returns nil and the writer received the complete output.", "quantifier": "all calendars' output, all failure points (call index and number of octets accepted)", "why_tests_cant": "The failure can occur at any of unboundedly many points; tests exercise none or a few.", "anchors": ["folder.go:folder.Write", "encoder.go:Encode"]}
{"id": "C06", "title": "Encode writes nothing when validation fails", "statement": "If Encode returns a validation error the writer has received no octet and no Write call.", "quantifier": "all calendars, all writers", "why_tests_cant": "Must hold for every invalid value anywhere in the tree.", "anchors": ["encoder.go:Encode", "sections.go:Calendar.valid"]}
{"id": "C07", "title": "Unfolding is independent of how the reader delivers data", "statement": "The text Decode sees is the input with every CRLF SPACE removed, whatever sizes of pieces the io.Reader returns and whatever buffer sizes are requested.", "quantifier": "all inputs, all reader chunkings, all request sizes", "why_tests_cant": "io.Reader may return any chunk sizes; the schedule space is unbounded.", "anchors": ["unfolder.go:unfolder.Read"]}
{"id": "C08", "title": "Reading terminates", "statement": "For every input and every reader that makes progress, the reading layer of Decode terminates: no Read call loops forever.", "quantifier": "all inputs, all reader chunkings", "why_tests_cant": "Non-termination can not be tested and depends on exact chunk endings.", "anchors": ["unfolder.go:unfolder.Read"]}
{"id": "C09", "title": "No input octets are lost or invented by unfolding", "statement": "Apart from removed CRLF SPACE sequences, the unfolding reader delivers every octet of its input exactly once and in order, including when the underlying reader returns data together with io.EOF.", "quantifier": "all inputs, all reader chunkings, all request sizes", "why_tests_cant": "Schedules of partial reads are unbounded.", "anchors": ["unfolder.go:unfolder.Read"]}
{"id": "C10", "title": "Content lines survive printing and parsing", "statement": "For a name made of iana-token characters, any parameter list whose names are iana-token characters and whose values contain no control characters, quotes or (when unquoted) ; : , and any value without control characters, the printed content line followed by any text parses as exactly that name, parameters (with their quotedness) and value, and parsing resumes exactly at the following text.", "quantifier": "all names, parameter lists, values and continuations", "why_tests_cant": "Grammar round-trip over unbounded strings.", "anchors": ["tokeniser.go:parseName", "tokeniser.go:parseParamName", "tokeniser.go:parseParamValue", "tokeniser.go:parseValue", "tokeniser.go:phrase"]}
{"id": "C11", "title": "Parsed lines contain only permitted characters", "statement": "Every content line Decode processes has a non-empty iana-token name, parameter names of iana-token characters, at least one value per parameter, quoted values without quotes/control characters, unquoted values without \" ; : , or control characters, and a value without control characters (tab excepted).", "quantifier": "all inputs", "why_tests_cant": "Universal statement over all inputs.", "anchors": ["tokeniser.go:parseName", "tokeniser.go:parseParamName", "tokeniser.go:parseParamValue", "tokeniser.go:parseValue"]}
{"id": "C12", "title": "Decode never panics", "statement": "Decode returns a calendar or an error for every input; it never panics.", "quantifier": "all inputs, all behaviours of URL, float and time-zone parsing", "why_tests_cant": "Panics hide in rare index expressions; fuzzing only samples.", "anchors": ["decoder.go:Decode", "types.go:Recur.decode", "sections_alarm.go:Alarm.decode"]}
{"id": "C13", "title": "Decode accepts only a VCALENDAR component that is properly closed", "statement": "If Decode succeeds, the first content line is BEGIN:VCALENDAR (any case), and an END:VCALENDAR line closes it with all nested components closed.", "quantifier": "all inputs", "why_tests_cant": "Universal statement over all inputs.", "anchors": ["decoder.go:Decode", "sections.go:Calendar.decode"]}
{"id": "C14", "title": "Anything after the calendar is ignored", "statement": "Whatever follows the END:VCALENDAR line does not influence the result of a successful Decode.", "quantifier": "all inputs and all continuations", "why_tests_cant": "Quantifies over all pairs of documents.", "anchors": ["decoder.go:Decode"]}
{"id": "C15", "title": "Truncated documents are never accepted", "statement": "No proper prefix of an encoded calendar that ends before the final END:VCALENDAR text is complete decodes successfully (so a crash while writing is detected on reading).", "quantifier": "all encodable calendars, all truncation points", "why_tests_cant": "Every prefix of every document.", "anchors": ["decoder.go:Decode", "encoder.go:Encode"]}
{"id": "C16", "title": "Text values round-trip", "statement": "Decoding the encoding of any Text value yields the same text; the encoding never contains an unescaped comma, semicolon, backslash or newline.", "quantifier": "all strings", "why_tests_cant": "Round-trip law over all strings.", "anchors": ["types.go:Text.encode", "types.go:Text.decode", "types.go:decodeText"]}
{"id": "C17", "title": "Multi-text values round-trip", "statement": "Decoding the encoding of any non-empty list of texts (CATEGORIES, RESOURCES) yields the same list, commas inside items included.", "quantifier": "all lists of strings", "why_tests_cant": "Round-trip law over all lists of strings.", "anchors": ["types.go:MText.encode", "types.go:MText.decode"]}
{"id": "C18", "title": "Durations round-trip", "statement": "Decoding the encoding of any Duration yields an equal Duration, so no component is lost.", "quantifier": "all sign/weeks/days/hours/minutes/seconds combinations", "why_tests_cant": "Five unbounded counters; which zero/non-zero combinations break is easy to miss.", "anchors": ["types.go:Duration.encode", "types.go:Duration.decode"]}
{"id": "C19", "title": "Duration parsing follows the RFC 5545 grammar", "statement": "A string is accepted as a duration exactly if it matches the RFC 5545 dur-value grammar (with in-range numbers), and the fields are the numbers written.", "quantifier": "all strings", "why_tests_cant": "Acceptance must be decided for all strings.", "anchors": ["types.go:Duration.decode"]}
{"id": "C20", "title": "UTC offsets round-trip", "statement": "Decoding the encoding of a UTC offset yields the same offset, and the encoding is a valid RFC 5545 utc-offset.", "quantifier": "all offsets", "why_tests_cant": "Universal over integers.", "anchors": ["types.go:UTCOffset.encode", "types.go:UTCOffset.decode"]}
{"id": "C21", "title": "Dates and times round-trip", "statement": "Decoding the encoding of a DateTime/Date yields the same instant and location, for UTC, local and zoned times.", "quantifier": "all instants in years 0-9999, all zones", "why_tests_cant": "Calendar arithmetic over all days and zone transitions.", "anchors": ["types.go:DateTime.encode", "types.go:DateTime.decode", "types.go:Date.encode", "types.go:Date.decode", "types.go:writeTimezone"]}
{"id": "C22", "title": "Only real calendar dates are accepted", "statement": "A successful Date/DateTime decode consumed exactly four year digits, two-digit month 1..12, a two-digit day that exists in that month and year, and (for times) hour<24, minute<60, second<60.", "quantifier": "all strings", "why_tests_cant": "All strings, including leap-year rules.", "anchors": ["types.go:Date.decode", "types.go:DateTime.decode"]}
{"id": "C23", "title": "Recurrence rules round-trip", "statement": "Decoding the encoding of any recurrence rule accepted by validation yields an equal rule.", "quantifier": "all Recur values accepted by valid", "why_tests_cant": "15 fields with lists of unbounded length.", "anchors": ["types.go:Recur.encode", "types.go:Recur.decode", "types.go:Recur.valid"]}
{"id": "C24", "title": "Decoded recurrence rules are in range", "statement": "Every rule Decode accepts satisfies the RFC ranges (seconds 0-60, minutes 0-59, hours 0-23, ordinals 1-53, month days 1-31, year days 1-366, ...), has a frequency, never has both COUNT and UNTIL, and passes Encode's validation.", "quantifier": "all strings", "why_tests_cant": "All strings; all list positions.", "anchors": ["types.go:Recur.decode", "types.go:Recur.valid"]}
{"id": "C25", "title": "Binary attachments round-trip", "statement": "Decoding the base64 encoding of any octet string yields the same octets, and BINARY is only accepted with ENCODING=BASE64.", "quantifier": "all octet strings", "why_tests_cant": "Round-trip law over all octet strings and lengths mod 3.", "anchors": ["types.go:Binary.encode", "types.go:Binary.decode"]}
{"id": "C26", "title": "Integers and booleans round-trip and are range checked", "statement": "Decoding the encoding of any 32-bit Integer or Boolean yields the same value; out-of-range integers are rejected, never wrapped.", "quantifier": "all 32-bit integers, all strings", "why_tests_cant": "2^32 values and all strings.", "anchors": ["types.go:Integer.decode", "types.go:Integer.encode", "types.go:Boolean.decode", "types.go:Boolean.encode"]}
{"id": "C27", "title": "Periods round-trip", "statement": "Decoding the encoding of any period accepted by validation yields an equal period, and every decoded period that is well ordered is accepted by validation again.", "quantifier": "all periods", "why_tests_cant": "Two instants, zones and a duration.", "anchors": ["types.go:Period.encode", "types.go:Period.decode", "types.go:Period.valid"]}
{"id": "C28", "title": "Geographic positions can be encoded", "statement": "Encode accepts every event/todo whose GEO consists of finite floats and rejects NaN and infinities.", "quantifier": "all pairs of float64", "why_tests_cant": "2^128 pairs.", "anchors": ["types.go:TFloat.valid", "types.go:Float.valid"]}
{"id": "C29", "title": "Parameter text escaping round-trips (RFC 6868)", "statement": "Decoding the RFC 6868 encoding of any string yields that string, and decoding maps ^n, ^' and ^^ to newline, quote and caret and copies all else.", "quantifier": "all strings", "why_tests_cant": "Round-trip law over all strings.", "anchors": ["params.go:encode6868", "params.go:decode6868"]}
{"id": "C30", "title": "Encode terminates", "statement": "Encode returns for every calendar that passes validation.", "quantifier": "all valid calendars", "why_tests_cant": "Non-termination is not testable in general.", "anchors": ["params.go:encode6868", "encoder.go:Encode"]}
{"id": "C31", "title": "Parameters round-trip", "statement": "For every property parameter value accepted by validation, the encoded parameter is parsed and decoded back to the same value.", "quantifier": "all parameter kinds and values", "why_tests_cant": "All strings for each of 23 parameter kinds.", "anchors": ["params.go:ParamCommonName.encode", "params.go:ParamAlternativeRepresentation.encode", "params.go:ParamDelegator.encode", "params.go:ParamURI.encode"]}
{"id": "C32", "title": "Parameters a property knows appear at most once", "statement": "Decoding a property line fails if a parameter known to that property (or VALUE for a property with alternatives) occurs twice; other parameters never change the result, apart from TZID and ENCODING, which say how the value is written.", "quantifier": "all properties and parameter lists", "why_tests_cant": "All orders and repetitions of parameters.", "anchors": ["properties.go:PropAttendee.decode", "properties.go:PropAttachment.decode"]}
{"id": "C33", "title": "Exactly one value alternative", "statement": "After a successful decode a property with VALUE alternatives holds exactly one alternative, the one named by VALUE (the default if absent), and validation accepts exactly the values with one alternative set.", "quantifier": "all properties with alternatives, all parameter lists and values", "why_tests_cant": "All parameter lists.", "anchors": ["properties.go:PropRecurrenceDateTimes.decode", "properties.go:PropTrigger.valid"]}
{"id": "C34", "title": "Required properties are enforced on decode", "statement": "If Decode succeeds every component holds each of its required properties, taken from exactly one line of that component.", "quantifier": "all inputs, all components at any position", "why_tests_cant": "All documents.", "anchors": ["sections.go:Calendar.decode", "sections.go:Event.decode", "sections.go:Todo.decode", "sections.go:Journal.decode", "sections.go:FreeBusy.decode", "sections.go:Timezone.decode", "sections.go:Standard.decode", "sections.go:Daylight.decode"]}
{"id": "C35", "title": "Single-occurrence properties are enforced on decode", "statement": "If a component contains two lines for a property that may occur at most once, Decode fails.", "quantifier": "all inputs, all components, all positions of the two lines", "why_tests_cant": "All documents.", "anchors": ["sections.go:Event.decode", "sections.go:Todo.decode"]}
{"id": "C36", "title": "Mutual-exclusion and dependency rules are enforced on decode", "statement": "If Decode succeeds: no event has both DTEND and DURATION; no todo has both DUE and DURATION or DURATION without DTSTART; every timezone has a STANDARD or DAYLIGHT part; no alarm has GEO-LOCATION without PROXIMITY.", "quantifier": "all inputs", "why_tests_cant": "All documents.", "anchors": ["sections.go:Event.decode", "sections.go:Todo.decode", "sections.go:Timezone.decode", "sections.go:AlarmAudio.decode"]}
{"id": "C37", "title": "Alarm DURATION and REPEAT occur together", "statement": "As RFC 5545 demands, Decode accepts an alarm only if DURATION and REPEAT are both present or both absent.", "quantifier": "all alarms", "why_tests_cant": "All combinations in all alarm kinds.", "anchors": ["sections.go:AlarmEmail.decode", "sections.go:AlarmURI.decode", "sections.go:AlarmAudio.decode", "sections.go:AlarmDisplay.decode"]}
{"id": "C38", "title": "Validation on encode agrees with decode", "statement": "Every calendar accepted by Encode's validation satisfies the same cross-property rules Decode enforces, so Encode never emits a document Decode rejects.", "quantifier": "all calendars accepted by validation", "why_tests_cant": "All calendars.", "anchors": ["sections.go:Event.valid", "sections.go:Timezone.valid", "sections.go:Event.decode"]}
{"id": "C39", "title": "Repeated properties keep order", "statement": "For repeatable properties and components the decoded list holds one element per line/component, in document order.", "quantifier": "all inputs", "why_tests_cant": "All documents.", "anchors": ["sections.go:Event.decode"]}
{"id": "C40", "title": "Unknown properties are ignored", "statement": "Inserting a content line whose name is unknown to a component anywhere inside that component does not change what Decode returns.", "quantifier": "all documents, all unknown names, all insertion points inside components (outside alarms' control lines)", "why_tests_cant": "All insertion points.", "anchors": ["sections.go:Event.decode"]}
{"id": "C41", "title": "Unknown components are skipped", "statement": "Inserting a balanced block BEGIN:X ... END:X with an unknown name X, arbitrarily nested, inside a component does not change what Decode returns.", "quantifier": "all unknown components of any depth and content", "why_tests_cant": "Arbitrary nesting depth.", "anchors": ["sections.go:decodeDummy"]}
{"id": "C42", "title": "Order of differently named properties does not matter", "statement": "Swapping two adjacent property lines of a component that are stored in different fields does not change a successful decode.", "quantifier": "all documents, all positions", "why_tests_cant": "All permutations.", "anchors": ["sections.go:Event.decode"]}
{"id": "C43", "title": "Names are case-insensitive", "statement": "Changing the letter case of property names, parameter names, BEGIN/END keywords and component names does not change the result of Decode.", "quantifier": "all documents and case changes", "why_tests_cant": "All case variants at every position.", "anchors": ["sections.go:Event.decode", "sections_alarm.go:Alarm.decode", "sections.go:decodeDummy"]}
{"id": "C44", "title": "Encode then Decode is the identity", "statement": "For every calendar accepted by validation, Decode applied to the output of Encode returns an equal calendar.", "quantifier": "all valid calendars", "why_tests_cant": "The whole input space.", "anchors": ["encoder.go:Encode", "decoder.go:Decode"]}
{"id": "C45", "title": "Decoded calendars can be encoded", "statement": "Every calendar returned by Decode passes Encode's validation.", "quantifier": "all inputs", "why_tests_cant": "All documents.", "anchors": ["decoder.go:Decode", "sections.go:Calendar.valid"]}
{"id": "C46", "title": "No content injection", "statement": "Each component and property of an encoded calendar yields exactly its own content lines: no text, parameter, or zone name in the data can introduce an additional line, property, parameter or component.", "quantifier": "all valid calendars", "why_tests_cant": "Adversarial strings; all of them.", "anchors": ["types.go:Text.encode", "types.go:writeTimezone", "params.go:ParamCommonName.encode"]}
{"id": "C47", "title": "LAST-MODIFIED is preserved", "statement": "A LAST-MODIFIED property survives Encode followed by Decode, and Decode recognises the RFC 5545 name.", "quantifier": "all events, todos, journals and timezones with a LAST-MODIFIED property", "why_tests_cant": "Needs the whole pipeline for every value.", "anchors": ["sections.go:Event.decode", "properties.go:PropLastModified.encode"]}
{"id": "C48", "title": "Every field is encoded under a name that decodes to the same field", "statement": "For each component and each of its fields, the property name written by Encode is the one Decode stores in that field.", "quantifier": "all component kinds and fields", "why_tests_cant": "A finite table, but hundreds of generated cases that tests sample.", "anchors": ["sections.go", "properties.go"]}
{"id": "C49", "title": "Decode accepts exactly the calendars RFC 5545 describes", "statement": "Decode returns a calendar exactly for the documents that begin with a calendar object in which every component has each property as often as RFC 5545 section 3.6 allows, every property line has a value of a type section 3.8 gives that property and readable parameters, and the rules between properties hold.", "quantifier": "all documents (content lines, nesting, parameters, values) and all behaviours of the time zone database, URI and float parsers", "why_tests_cant": "Acceptance is a statement about every combination of lines in every nesting of components; tests look at a handful of documents.", "anchors": ["decoder.go:Decode", "sections.go:Calendar.decode", "sections.go:Event.decode", "sections_alarm.go:Alarm.decode", "properties.go"]}
{"id": "C50", "title": "A property line is read with the types and parameters RFC 5545 gives the property", "statement": "The value of a property line has the type that VALUE names, or else the default type of the property; every parameter the property stores is read at most once, from whatever position and case it is in; other parameters have no effect.", "quantifier": "all properties of all components, all parameter lists and values", "why_tests_cant": "There are over fifty properties times all orders and combinations of parameters; the code for each is generated and separate.", "anchors": ["properties.go", "properties.gen", "params.go"]}
{"id": "C51", "title": "No RFC 5545 property is dropped by Decode", "statement": "Every property that RFC 5545 allows in a component is stored by Decode in the value for that component.", "quantifier": "all components and all property names of RFC 5545", "why_tests_cant": "Dropping a line is silent: Decode returns no error and the rest of the calendar is right, so a test must already know what is missing.", "anchors": ["sections.go", "sections_alarm.go", "sections.gen"]}
{"id": "C52", "title": "Lists of times are read", "statement": "Where RFC 5545 allows a list of times (FREEBUSY, EXDATE, RDATE), Decode reads a list of any length as it reads a single time.", "quantifier": "all documents, all components with these properties, all lists of dates, date-times and periods", "why_tests_cant": "Lists have any length and any mixture of forms; the rejection is a property of the whole document.", "anchors": ["properties.go:PropRecurrenceDateTimes.decode", "properties.go:PropExceptionDateTime.decode", "properties.go:PropFreeBusy.decode", "types.go:DateTime.decode", "types.go:Period.decode"]}
{"id": "C53", "title": "REQUEST-STATUS values of RFC 5545 are read", "statement": "Every REQUEST-STATUS value of the form RFC 5545 gives it (status code, description and optional data with semicolons between them) is accepted by Decode.", "quantifier": "all documents and all RFC 5545 request status values", "why_tests_cant": "All status codes, descriptions and data.", "anchors": ["properties.go:PropRequestStatus.decode", "types.go:Text.decode"]}
{"id": "C54", "title": "The RELATED parameter of TRIGGER is kept", "statement": "Whether the trigger of an alarm is relative to the start or to the end of its component can be told from the decoded calendar.", "quantifier": "all documents with an alarm", "why_tests_cant": "Losing a parameter is silent, in every document.", "anchors": ["properties.go:PropTrigger.decode", "params.go:ParamRelated"]}
{"id": "C55", "title": "Documents that say the same line by line give the same calendar", "statement": "Names in another case, parameters a property has not, optional quotes, the case of values that are names, other escapes for the same text, and the order of parameters make no difference to the calendar Decode returns.", "quantifier": "all documents, all combinations of these changes in any lines", "why_tests_cant": "Combinations of rewritings over all lines of all documents.", "anchors": ["decoder.go:Decode", "properties.go", "params.go", "types.go:Text.decode", "types.go:MText.decode"]}
{"id": "C56", "title": "Recurrence rules mean what RFC 5545 says", "statement": "Decoding a recurrence rule reads every rule of RFC 5545 section 3.3.10 as the RFC describes (frequency, day and month names, signs, ranges, UNTIL as date or date-time, parts in any order), accepts nothing else, and what is written for a rule in range is a rule of RFC 5545 that says the same.", "quantifier": "all texts; all rules in range", "why_tests_cant": "A confused name, sign or part can be hidden by the matching mistake in encoding; the language is infinite.", "anchors": ["types.go:Recur.decode", "types.go:Recur.encode"]}
{"id": "C57", "title": "A value has the meaning its text says, for every value type", "statement": "For each value type (boolean, binary, dates, date-times, durations, integers, periods, pairs of floats, texts, URIs, offsets, recurrence rules), the texts that decoding accepts, and the values it gives for them, are those of a description of the type: nothing else is accepted, and no text gives another value.", "quantifier": "all texts, all value types, all TZID parameters", "why_tests_cant": "The set of texts is infinite; a value read wrongly is hidden when encoding makes the matching mistake.", "anchors": ["types.go", "properties.go"]}
{"id": "C58", "title": "A parameter has the meaning its text says, for every parameter", "statement": "For each kind of parameter, the lists of values (quoted or not) that decoding accepts, and what it gives for them, are those of a description of the kind: number of values, quotes needed, names without regard to case, formats, addresses, RFC 6868 escapes.", "quantifier": "all lists of parameter values, all parameters", "why_tests_cant": "The combinations of quoted and unquoted values are infinite; an accepted wrong value is silent.", "anchors": ["params.go"]}
{"id": "C59", "title": "Encode accepts exactly the calendars whose every property is fine", "statement": "Encode reports a validation error if and only if somewhere in the calendar there is a control character in a text or parameter, a number of a rule out of its range, a zero time, a period that is not one, a missing or second value, an unknown name, or an alarm without type; it never panics.", "quantifier": "all calendars, of any size and nesting", "why_tests_cant": "A check forgotten for one property in one component shows only with a calendar that has it there.", "anchors": ["encoder.go:Encode", "sections.go:Calendar.valid", "properties.go", "params.go", "types.go"]}
{"id": "C60", "title": "Reading, writing and reading again changes nothing", "statement": "A calendar that Decode gives for some document, and that Encode accepts, is encoded to a document which Decode reads as an equal calendar; encoding that one gives the same text again.", "quantifier": "all documents, in any spelling, order or folding; all time zones whose offset changes at most once within thirty hours of any instant", "why_tests_cant": "Decode accepts far more spellings than Encode writes, and readings of clocks that do not exist or exist twice; that each of them has a normal form is a statement about all texts and zones.", "anchors": ["decoder.go:Decode", "encoder.go:Encode", "types.go:DateTime.decode", "types.go:DateTime.encode", "params.go", "sections.go"]}
{"id": "C61", "title": "Encode returns on everything that Decode gives", "statement": "For each document that Decode accepts, Encode of the resulting calendar returns, with or without an error.", "quantifier": "all documents, all writers", "why_tests_cant": "Not returning cannot be observed by a test, and the documents are infinitely many; a service that reads and writes calendars of others hangs if there is one.", "anchors": ["encoder.go:Encode", "decoder.go:Decode", "params.go:encode6868", "params.go:decode6868"]}
{"id": "C62", "title": "A local time with a time zone is the instant that RFC 5545 says", "statement": "A DATE-TIME with TZID is decoded to the instant at which a clock in that zone shows the reading; if there are two, to the first; if there is none because clocks are put forward, to the instant computed with the offset before the gap.", "quantifier": "all texts, all zones of the database whose offset changes at most once within thirty hours of any instant", "why_tests_cant": "The choice depends on the sign of the offset and the kind of change, for every zone of the database and every year; tests pick ordinary times.", "anchors": ["types.go:DateTime.decode"]}
{"id": "C63", "title": "What Encode writes is read back from a file or from memory, whatever the sizes", "statement": "For a calendar that survives Encode and Decode as texts (C44), Decode applied to the octets written by Encode, read from a reader that delivers as many octets as it is asked for, returns that calendar for every size of the document and of the parser's buffer.", "quantifier": "all calendars of C44, all ways to cut the text into writes, all buffer sizes", "why_tests_cant": "Whether a fold meets the end of a buffer depends on the length of everything before it; tests use documents smaller than one buffer, and not returning cannot be observed by a test.", "anchors": ["decoder.go:Decode", "encoder.go:Encode", "unfolder.go:unfolder.Read", "folder.go:folder.Write"]}
{"id": "C64", "title": "Lines folded by others are understood", "statement": "A document that Decode accepts is accepted, with the same calendar, when its lines are folded in any of the ways of RFC 5545 section 3.1: CR LF followed by SPACE or HTAB inserted between any two octets.", "quantifier": "all documents and all ways to fold them", "why_tests_cant": "The ways to fold a document are exponentially many, among them folds inside of characters, of escapes, of names, and behind each other.", "anchors": ["unfolder.go:unfolder.Read", "decoder.go:Decode", "tokeniser.go:parseName"]}
{"id": "C65", "title": "Decode settles the result as early as the lines allow and reports the first problem", "statement": "After any complete content lines either the result is settled (calendar, error or panic: the same whatever follows), or Decode has not decided anything yet: if the document ends there it reports an unexpected end (or panics), and if the next line is malformed it reports that line. In particular an error other than the unexpected end does not depend on the rest of the document.", "quantifier": "all sequences of content lines and all continuations", "why_tests_cant": "Quantifies over all continuations of all documents.", "anchors": ["decoder.go:Decode", "sections.go:Calendar.decode", "sections_alarm.go:Alarm.decode", "sections.go:decodeDummy"]}
{"id": "C66", "title": "Components are independent of each other", "statement": "A calendar object into which blocks of components are put, at any place between its own lines and blocks, is accepted if and only if it is accepted without them and a calendar object with nothing but these components is accepted; then Decode returns the components of both, those put in standing at their place among the components of their kind, and nothing else changes.", "quantifier": "all calendar objects, all blocks, all places", "why_tests_cant": "Quantifies over all pairs of documents and all places to put one into the other.", "anchors": ["sections.go:Calendar.decode", "decoder.go:Decode", "sections_alarm.go:Alarm.decode"]}
{"id": "C67", "title": "Different calendars are written differently", "statement": "Two calendars accepted by Encode and written as the same octets are the same calendar (but for the identity of time zone objects with the same name).", "quantifier": "all pairs of calendars", "why_tests_cant": "Quantifies over all pairs of calendars.", "anchors": ["encoder.go:Encode"]}
{"id": "C68", "title": "Enumerations have the names of the RFC, read in any case and written back", "statement": "For every enumerated property (CLASS, STATUS, TRANSP, ACTION, CALSCALE) and parameter (CUTYPE, ROLE, PARTSTAT, RELTYPE, FBTYPE, VALUE, ENCODING, RELATED) the known names are those of RFC 5545, each for one constant; a text is read as a constant exactly if it is its name in any case; every valid constant of a property is written as its name; other texts are errors for properties and the unknown value, written as UNKNOWN, for parameters.", "quantifier": "all enumerations, all texts, all numbers", "why_tests_cant": "All texts in all cases, all numbers a uint8 can hold.", "anchors": ["properties.go:PropClass", "properties.go:PropStatus", "params.go:ParamParticipationStatus", "params.go:ParamValue"]}
{"id": "C69", "title": "Decode does not wait for more input than the calendar", "statement": "If a whole calendar, as Encode writes it, has arrived on a connection that stays open, Decode gets it without asking the connection for more.", "quantifier": "all calendars, all readers, all buffer sizes, all runs", "why_tests_cant": "Tests read from memory, where asking again gives the end of the input at once; whether the reader is asked again depends on the last octets of every delivery.", "anchors": ["unfolder.go:unfolder.Read", "decoder.go:Decode"]}
{"id": "C70", "title": "A document that is cut off is reported as ending too early", "statement": "If an accepted document, whoever wrote it, is cut off between two lines and what is left is not accepted itself, Decode reports an unexpected end of the input, and no other mistake.", "quantifier": "all accepted documents, all cuts between lines", "why_tests_cant": "All documents and every crash point between lines.", "anchors": ["decoder.go:Decode", "sections.go:decode"]}
{"id": "C71", "title": "The first wrong line is the one that is reported", "statement": "At every place of a document where a line for a property is accepted, another line for the same property in its place has an effect by its own parameters and value alone: right, Decode goes on; wrong, its own error is reported at once, whatever follows.", "quantifier": "all documents, all places, all lines", "why_tests_cant": "All documents up to the line, all lines, and everything that might follow.", "anchors": ["sections.go:decode", "decoder.go:Decode"]}
{"id": "C72", "title": "The outcome of Decode is that of the first line at fault", "statement": "For every document whatsoever, Decode accepts it exactly if no line up to the one that ends the calendar is at fault, returns an error exactly for the reason and with the error of the first line that is at fault (or because the document ends, or has a text that is not a content line, before the calendar is complete), and panics in the remaining cases. Whether a line is at fault depends on what is in the innermost open block only.", "quantifier": "all documents, all errors", "why_tests_cant": "An equivalence over all texts: both that every fault is reported and that nothing else is.", "anchors": ["decoder.go:Decode", "sections.go:decode", "sections.go:decodeDummy", "sections_alarm.go:Alarm.decode"]}
{"id": "C73", "title": "Each error means what it says", "statement": "For every error that Decode can return there is one condition on the document, and Decode returns the error exactly if the condition holds: ErrMissingRequired exactly if a block ends without a required property and nothing before is wrong, ErrInvalidEnd exactly if an END line has a name other than that of the innermost open block, and so on, including the errors of content lines and of values by their type. Decode returns no other errors.", "quantifier": "all documents, all errors", "why_tests_cant": "For each error an equivalence over all documents; tests show single documents with an error, not that no other document has it.", "anchors": ["decoder.go:Decode", "sections.go:decode", "sections_alarm.go:Alarm.decode", "tokeniser.go:ErrInvalidContentLine", "types.go:ErrInvalidRecur"]}
{"id": "C74", "title": "Exactly the documents that are accepted, and the calendar each of them is read as", "statement": "Decode returns a calendar exactly for the documents of a grammar that says what each component holds: each field in order what its lines are read as, each list of components in order what the blocks are read as. The grammar is not ambiguous, and for documents with keywords in upper case it is that of RFC 5545.", "quantifier": "all documents, all calendars", "why_tests_cant": "An equivalence over all texts and all calendars.", "anchors": ["decoder.go:Decode", "sections.go:decode", "sections.go:decodeDummy", "sections_alarm.go:Alarm.decode"]}
{"id": "C75", "title": "Lines are judged one by one", "statement": "If lines of an accepted document are replaced by lines with the same names that can be read for the same properties, the document is still accepted; the calendar has the same components and as many properties, and each differs from the old one only as what is read from its line does. No check of Decode relates the value of one property to that of another.", "quantifier": "all documents, all sets of lines replaced, all relations between what is read", "why_tests_cant": "A statement about every pair of documents; it is what makes checks between properties impossible.", "anchors": ["decoder.go:Decode", "sections.go:decode"]}
{"id": "C76", "title": "A document means the same on every machine", "statement": "A document that is accepted on one machine is accepted on every other, with the same calendar.", "quantifier": "all documents, all pairs of machines (their time zone, the zones they know and their rules)", "why_tests_cant": "Tests run on one machine, with one time zone and one tz database.", "anchors": ["types.go:DateTime.decode", "types.go:Period.decode", "types.go:Recur.decode"]}
{"id": "C77", "title": "Times that RFC 5545 wants in UTC are in UTC", "statement": "In an accepted document DTSTAMP, CREATED, COMPLETED and LAST-MODIFIED are times in UTC.", "quantifier": "all documents", "why_tests_cant": "All documents; the failure is that a check is absent.", "anchors": ["properties.go:PropDateTimeStamp", "properties.go:PropCreated", "properties.go:PropCompleted", "properties.go:PropLastModified"]}
{"id": "C78", "title": "Numbers are in the ranges of RFC 5545", "statement": "In an accepted document PRIORITY is 0 to 9, PERCENT-COMPLETE is 0 to 100, SEQUENCE and REPEAT are not negative.", "quantifier": "all documents", "why_tests_cant": "All documents and all numbers.", "anchors": ["properties.go:PropPriority", "properties.go:PropPercentComplete", "properties.go:PropSequence", "properties.go:PropRepeat"]}
{"id": "C79", "title": "An event ends after it begins", "statement": "In an accepted document an event that has a beginning and an end ends after it begins.", "quantifier": "all documents", "why_tests_cant": "All documents; the failure is that a check is absent.", "anchors": ["sections.go:Event.decode", "properties.go:PropDateTimeStart", "properties.go:PropDateTimeEnd"]}
{"id": "C80", "title": "A document may use the time zones it defines", "statement": "A time of an accepted document may have the TZID of a VTIMEZONE of the document.", "quantifier": "all documents, all names of zones, all machines", "why_tests_cant": "Tests use names of the tz database, which the machine knows without the document.", "anchors": ["types.go:DateTime.decode", "sections.go:Timezone.decode"]}
{"id": "C81", "title": "Values are written as RFC 5545 texts", "statement": "A valid value that has a text in RFC 5545 is written as such a text, and as a text for this value and no other.", "quantifier": "all valid values of all types, all zones of the machine, all predicates for what a URI is", "why_tests_cant": "Values and texts are without bound; the grammar of RFC 5545 is not run by any test, only single texts are compared.", "anchors": ["types.go:aencode", "types.go:Recur.aencode", "types.go:UTCOffset.aencode", "types.go:Duration.aencode"]}
{"id": "C82", "title": "Documents are written as RFC 5545 wants them", "statement": "If the components of a valid calendar have the properties that RFC 5545 wants them to have, and there are texts for the values, the written document is one that RFC 5545 allows in all parts: names, parameters, values, numbers of properties and nesting.", "quantifier": "all valid calendars, all zones of the machine, all predicates for what a URI is", "why_tests_cant": "Calendars are without bound; whether a whole document follows the grammar and the rules of RFC 5545 is not checked by any test, and depends on all parts of the encoder together.", "anchors": ["encoder.go:Encode", "sections.go:encode", "properties.go:encode", "params.go:encode"]}
{"id": "C83", "title": "Exactly which calendars come back", "statement": "A valid calendar is written and comes back from Decode, up to the identity of loaded locations, if and only if it keeps the rules between its properties, has no LAST-MODIFIED property, and each of its parameters and values comes back on its own; for each type of value and parameter it is settled exactly which values do.", "quantifier": "all valid calendars, where the strings the library makes of URIs and floats have no control characters and names of zones need no quotes; all zones of the machine, all parts of calendars", "why_tests_cant": "Calendars are without bound, and the claim is an equivalence: it says of every calendar whether it is kept, so no set of samples settles it.", "anchors": ["encoder.go:Encode", "decoder.go:Decode", "sections.go:encode", "properties.go:encode", "params.go:encode", "types.go:encode"]}
{"id": "C84", "title": "Texts that are not UTF-8", "statement": "Go strings need not be UTF-8. What is written for a text, or a list of texts, is UTF-8 whatever octets the text has: each octet that is not part of an encoded rune is replaced by U+FFFD. Reading it gives the octets of the text back if and only if they were UTF-8. Validation does not notice: it accepts a text exactly if it accepts the text with the replacements.", "quantifier": "all strings of octets, valid UTF-8 or not; all lists of them", "why_tests_cant": "There are infinitely many strings of octets that are not UTF-8, and bad octets can stand anywhere among good ones.", "anchors": ["types.go:Text.encode", "types.go:Text.valid", "types.go:MText.encode", "types.go:MText.valid"]}
{"id": "C85", "title": "Which error a wrong text gets", "statement": "For each type of value, each parameter, each property of each component and each line of text it is settled which error a wrong text gets, in terms of the text: a duration whose number is missing or not below 2^64 gets the error of strconv and any other wrong duration 'invalid duration'; a period is judged by its slash, then its start, then its end; of the parameters of a property the first one at fault decides, before the value; a line by the first place where it is not a content line. Each text is right, or has exactly one error, or is one of the rules at which the library panics. Decode returns that error of the first line at fault.", "quantifier": "all texts as values of all types, all values of all parameters, all lines for all properties of all components, all documents", "why_tests_cant": "There are infinitely many ways to be wrong, and more than one can occur at once; which is reported depends on the order in which the code looks.", "anchors": ["types.go", "params.go", "properties.go", "tokeniser.go", "sections.go"]}
{"id": "C86", "title": "Which error Encode returns", "statement": "If Encode refuses a calendar, the error is that of the first property it refuses, or of the first alarm without type, in the order in which the parts of the calendar stand: the properties of the calendar, then component by component, in each its properties before its alarms or time zone parts. Which error a property gets is settled by its first parameter that is refused, else its first value that is refused, else by the number of its values; and which error a value or parameter gets by its type and content. Each value is accepted or refused with exactly one error, and nothing is written if anything is refused.", "quantifier": "all calendars of the Go types, all properties, parameters and values in them; all writers", "why_tests_cant": "A calendar can have any number of faults in any places; which is reported depends on the order of the checks.", "anchors": ["encoder.go:Encode", "sections.go:Calendar.valid", "properties.go", "params.go", "types.go"]}
{"id": "C87", "title": "When Encode panics on nil pointers", "statement": "Encode panics when given a nil calendar, and when given a calendar exactly if it holds an alarm whose AlarmType is a nil pointer of a type other than AlarmNone and nothing before that alarm is refused; if something before it is refused, that error is returned. In neither case is anything written. A nil pointer to AlarmNone is an alarm like any other. A calendar without such nil pointers never makes Encode panic.", "quantifier": "all calendars of the Go types, including nil ones, with nil pointers in any of their alarms; all writers", "why_tests_cant": "The alarm can be anywhere in a calendar of any size, with other faults before or behind it.", "anchors": ["encoder.go:Encode", "sections_alarm.go:Alarm.valid", "sections_alarm.go:Alarm.encode", "sections.go:AlarmAudio.valid", "sections.go:AlarmNone.valid"]}
{"id": "C88", "title": "How deep Decode recurses", "statement": "While Decode runs, the calls of it, of the decode methods of components and of the function that skips unknown components that are open at one time are at most two more than the BEGIN lines of the document. If the names BEGIN and END are in upper case they are at most one more than the blocks open at one time in the document, or five if that is more, however long the document is; if the document is accepted they are exactly one more than the blocks open at one time in the lines of the calendar, or five if the calendar has an alarm and that is more. There is no bound for all documents: for every n there is a document of 55 + 16 n characters, accepted as an empty calendar, with n + 2 calls open at one time, and Go ends a program whose stack grows beyond its limit.", "quantifier": "all documents; all depths of nesting", "why_tests_cant": "A test has one depth of nesting; the limit of the stack is far beyond those of usual tests.", "anchors": ["decoder.go:Decode", "sections.go:Calendar.decode", "sections.go:decodeDummy", "sections_alarm.go:Alarm.decode"]}
{"id": "C89", "title": "What the error of Decode says", "statement": "The text of the error that Decode returns is determined, for every document: the way from the calendar to the innermost open block that is known (\"error decoding Calendar->Event: \" for each step), and then what is wrong there: block and property followed by the property's own error, or the two names and \"multiple\" for a property that was there already, or the block and \"invalid end of section\", \"required property missing\", \"requirement not met\" or \"unexpected EOF\". Components that are not known are left out; errors about an alarm as a whole do not name it again, those about a line in it name the type of alarm. The names tell blocks and the properties of a block apart, but the text does not tell which of several components is meant, or which line. There is a text exactly if there is an error.", "quantifier": "all documents, for any texts of the errors of properties and of the standard library", "why_tests_cant": "The line at fault can be anywhere, in blocks nested in any way, known and unknown, behind any other lines.", "anchors": ["params.go:errDecodingType", "properties.go:errDecodingProp", "sections.go:errMultiple", "sections.go:Calendar.decode", "sections.go:decodeDummy", "sections_alarm.go:Alarm.decode", "decoder.go:Decode"]}
{"id": "C90", "title": "What the error of Encode says", "statement": "The text of the error that Encode returns for a calendar it refuses is determined: the way from the calendar to the first property that is refused, in the order in which they are validated (\"error validating Calendar->Event: error validating Event->UID: \" and the property's own error), where the properties of an alarm are said to be those of its type; or, for an alarm without type, the way to it and \"invalid alarm type\". There is a text exactly if a validation error is returned.", "quantifier": "all calendars of the Go types, for any texts of the errors of properties", "why_tests_cant": "The property can be anywhere in a calendar of any size, with others behind it that are refused as well.", "anchors": ["properties.go:errValidatingProp", "sections.go:Calendar.valid", "sections_alarm.go:Alarm.valid", "encoder.go:Encode"]}
{"id": "C91", "title": "What the error of a property says", "statement": "The text of the error for a wrong property is determined: \"error decoding \" and the property, the parameter that is at fault or, if the property has parameters or several types, the type of the value, and then the reason; of a parameter whose values are wrong the name is given twice. The first parameter at fault decides, and only if there is none the value. The reason is the text of the error that is found by unwrapping, or that of the call of the standard library that failed with what that was about: the start, the end or the length of a period, the first or second of two numbers, the number in a duration that can not be read, the time zone or the time in it. In the text of the error of Decode the property is named twice, by the same name. There is a text exactly if there is an error.", "quantifier": "all properties of all blocks, all parameters and values, for any texts of the errors of the standard library", "why_tests_cant": "Every value of every type can be wrong in its own way, behind any parameters in any order.", "anchors": ["types.go:DateTime.decode", "types.go:Duration.decode", "types.go:Period.decode", "types.go:TFloat.decode", "params.go:errDecodingType", "properties.go:errDecodingProp", "properties.go:PropAttachment.decode"]}
{"id": "C92", "title": "Why Encode refuses a calendar, in words", "statement": "The text of the error that Encode returns for a calendar it refuses is determined to the last word: the way to the first property that is refused, its name, and the parameter or the type of the value with the text of the error that is found by unwrapping. Of a property that is just a value, of one with not exactly one value, and of a parameter it is said that there was an error decoding, although nothing was decoded.", "quantifier": "all calendars of the Go types", "why_tests_cant": "Every value of every type can be refused in its own way, anywhere in a calendar of any size.", "anchors": ["params.go:errValidatingType", "properties.go:errValidatingProp", "properties.go:PropAttachment.valid", "types.go:Recur.valid", "encoder.go:Encode"]}
{"id": "C93", "title": "What a Read of the unfolded input returns", "statement": "Decode reads its input through a reader that removes the folds. Every Read of it that returns gives a count between zero and the size of the buffer, and it never panics, whatever the caller's reader does within the contract of io.Reader: any sizes of pieces, errors with or without data, and calls that deliver nothing and no error. A negative count would make a buffered reader above it panic.", "quantifier": "all readers that keep to the contract of io.Reader, all buffer sizes, all states", "why_tests_cant": "The counts depend on the whole schedule of pieces, also on those that are discouraged but allowed.", "anchors": ["unfolder.go:unfolder.Read", "tokeniser.go:newTokeniser", "decoder.go:Decode"]}
{"id": "C94", "title": "Written, read and written again, the text stays the same", "statement": "If Encode writes a calendar and Decode reads what was written, then Encode writes what was read, and the text is the same as before: tools that load and save calendars do not change files that nobody edited. (Of the first text nothing is claimed but that Encode wrote it.)", "quantifier": "all calendars that pass validation, all texts, parameters and values in them, all time zones and libraries for URIs and numbers", "why_tests_cant": "Every value of every type can be read as another one whose text differs; it depends on the clocks of all time zones at all times.", "anchors": ["encoder.go:Encode", "decoder.go:Decode", "types.go:DateTime.encode", "types.go:DateTime.decode", "types.go:Recur.encode", "types.go:Period.valid", "sections.go:Event.encode"]}
{"id": "C95", "title": "Exactly the texts that Decode accepts, character by character", "statement": "Decode returns a calendar exactly if the unfolded text begins with well-formed content lines, each ended by CR LF, that the grammar of C74 reads as that calendar; only if nothing follows may the last CR LF be missing. So lines ended by LF alone or CR alone, other control characters, empty lines, indented lines and byte order marks are refused wherever they are found before the end of the calendar, with the error for a wrong value or for an invalid content line, and accepted documents begin with BEGIN.", "quantifier": "all texts, all characters, all places in the text; in octets: all documents delivered at once", "why_tests_cant": "The claim is about all texts that are not accepted as much as those that are; a test sees single texts.", "anchors": ["tokeniser.go:parseName", "tokeniser.go:parseValue", "tokeniser.go:phrase", "decoder.go:Decode"]}
{"id": "C96", "title": "Folding keeps octets that are not UTF-8", "statement": "Whatever octets the strings of a calendar have, UTF-8 or not, and however they are divided into writes: no line that reaches the writer has more than 75 octets, removing the line breaks gives back the octets, breaks are made only between characters or octets that belong to no character, every write reports the octets it was given, and what is written depends on the octets alone.", "quantifier": "all sequences of writes of all octets", "why_tests_cant": "Octets that are not UTF-8 can be anywhere relative to the column at which lines are broken, and can be divided in any way.", "anchors": ["folder.go:folder.Write", "folder.go:folder.WriteString"]}
{"id": "C97", "title": "What Decode keeps is bounded by the size of the document", "statement": "The calendar that Decode returns holds at most two characters, octets, list elements, parameters, properties and components for each character of the document, at most one if the document has no caret, and the factor two is reached for every length. No document, however made, expands to something much larger in memory.", "quantifier": "all documents that Decode accepts, all lengths, all time zone databases and machines", "why_tests_cant": "An expansion would show only for documents made to cause it; tests measure the documents they have.", "anchors": ["decoder.go:Decode", "params.go:decode6868", "types.go:decodeText", "types.go:Recur.decode", "sections.go:decodeDummy", "sections_alarm.go:Alarm.decode"]}
{"id": "C98", "title": "What Encode writes is put together from its parts", "statement": "The octets that Encode writes are those of a first line, of each property, of each component and of a last line, one after the other in the order of the fields, where the octets of a property depend on its kind and value only and those of a component on its kind and value only; components, alarms and time zone rules are put together in the same way. So to add, remove or replace a component or a property changes what is written in that place only, where the lines are folded included, and Encode refuses a calendar, or does not return, exactly if this is so for one of its parts.", "quantifier": "all calendars of the Go types, all components and properties, all places, all ways the text is divided into writes, all time zone databases and machines", "why_tests_cant": "It relates what is written for two calendars that differ in one part, for all pairs; a state kept across lines (such as the column of the folder) shows only after some particular part.", "anchors": ["encoder.go:Encode", "folder.go:folder.Write", "sections.go:Calendar.encode", "sections.go:Calendar.valid", "sections.go:Event.encode", "sections_alarm.go:Alarm.encode"]}
{"id": "C99", "title": "What Encode writes is bounded by the size of the calendar", "statement": "Encode writes at most a fixed multiple of the number of characters, octets, list elements, parameters, properties and components in the calendar, and of the lengths of the texts that net/url and strconv give for its addresses and floats and of the names of its time zones. Folding adds at most three octets to every 71. If a document is read by Decode and the calendar written by Encode, the new document is at most a fixed multiple of the length of the old one, whatever it holds.", "quantifier": "all calendars of the Go types, all documents that Decode accepts, all writers (failing ones included), all ways the text is divided into writes, all time zone databases and machines", "why_tests_cant": "A document made to be written much larger than it was read, or a fold that repeats, would show only for the inputs that cause it; tests see the sizes of the documents they have.", "anchors": ["encoder.go:Encode", "folder.go:folder.Write", "types.go:Recur.aencode", "types.go:DateTime.aencode", "types.go:Duration.aencode", "sections.go:Calendar.encode"]}
{"id": "C100", "title": "A reader that has failed is not asked again", "statement": "While Decode reads, the caller's reader is called only with buffers that are not empty and not larger than those of the parser (or of two octets). As soon as it returns an error, with or without octets, it is not called again, and this error, and no other, ends the reading.", "quantifier": "all readers that deliver no more than they are asked for, whatever errors they return and when, all sizes of buffers, all states of the unfolding reader", "why_tests_cant": "The calls depend on where the reader cuts its data and where it fails; tests use readers from memory, which fail in one way only.", "anchors": ["unfolder.go:unfolder.Read", "decoder.go:Decode"]}
{"id": "C101", "title": "How the caller's writer is called", "statement": "Encode hands the caller's writer pieces that are not empty and consist of whole characters: pieces of the text, and CR LF SPACE in front of some of them. The pieces are the same for every writer, as far as it is called: what a writer answers decides only whether there is a next call, and there is none after an error. For a writer that keeps the contract of io.Writer, a nil error of Encode means that it accepted everything.", "quantifier": "all calendars, all writers, whatever they answer and however that depends on what they were given, all ways in which the encoder divides the text into writes", "why_tests_cant": "The division into calls depends on columns, widths of characters and the encoder's writes; a writer may fail at any call. Tests write to memory, and see only the octets together.", "anchors": ["folder.go:folder.Write", "folder.go:folder.WriteString", "encoder.go:Encode"]}
{"id": "C102", "title": "Where the characters come from", "statement": "Every character of a text in a decoded calendar (texts, text parameters, names of time zones) is in the document, or is a line feed written with a backslash or a caret, a double quote written with a caret, or the replacement character U+FFFD of a text that ends in a backslash. Every character that Encode writes is CR, LF or printable ASCII, or in a text of the calendar, or in what the Go library writes for its URIs and numbers; so a calendar with 7-bit texts is written in octets below 128 only.", "quantifier": "all documents, all calendars, all writers, all behaviours of the Go library", "why_tests_cant": "Tests see the characters of their own samples; that no branch of any decoder or encoder makes up a character is a statement about all of them, for all inputs.", "anchors": ["decoder.go:Decode", "encoder.go:Encode", "types.go:decodeText", "types.go:Text.encode", "params.go:decode6868", "types.go:UTCOffset.encode"]}
{"id": "C103", "title": "How far Encode comes when it does not return", "statement": "Encode does not return if and only if the calendar passes validation and a text in one of its parameters has a line feed, a caret or a double quote in it, whatever the caller's writer does: an error of the writer does not stop it. What the writer is given is all that stands in front of the first such text in the document that would be written with other texts in the place of such texts, folded; a writer that returns an error is given a first part of it. Nothing of that text or behind it is ever handed over.", "quantifier": "all calendars of the Go types, all writers, all behaviours of the Go library", "why_tests_cant": "A test that meets such a calendar does not end; that what is written before is right and complete up to the text is a statement about all calendars and all places where the text may stand.", "anchors": ["encoder.go:Encode", "params.go:encode6868", "params.go:ParamCommonName.encode", "sections.go:Calendar.encode", "properties.go:PropSummary.encode"]}
{"id": "C104", "title": "What each call of the caller's writer is given", "statement": "No call of the caller's writer is given octets of two lines: each is given CR LF SPACE, or a part of one line of at most 75 octets with or without the CR LF behind it; so no call is given more than 77 octets, however long the values of the calendar are.", "quantifier": "all calendars of the Go types, whether Encode returns or not, all writers", "why_tests_cant": "The division into calls depends on the columns reached, the widths of the characters and the writes of every encode method; tests write to memory and see the octets together.", "anchors": ["folder.go:folder.Write", "encoder.go:Encode", "sections.go:Calendar.encode"]}
{"id": "C105", "title": "Calendars whose strings are not UTF-8", "statement": "Go strings may hold any octets. Encode treats a calendar whose texts and parameters are not UTF-8 as the calendar with U+FFFD in the place of each octet that is not part of the encoding of a character: validation gives the same answer, Encode returns for one if and only if it returns for the other, and Decode makes the same of what is written for both. So a calendar that would come back comes back exactly as it was if and only if all its texts and parameters are UTF-8.", "quantifier": "all calendars of the Go types with any octets in their strings, all URLs and zone names the Go library may give, all divisions into writes", "why_tests_cant": "Wrong octets may stand anywhere in any string, alone or next to characters that are escaped, quoted or folded; the tests use strings of ASCII and a few other characters.", "anchors": ["encoder.go:Encode", "params.go:encode6868", "types.go:Text.encode", "folder.go:folder.Write", "decoder.go:Decode"]}
{"id": "C106", "title": "What Encode writes is UTF-8", "statement": "What Encode writes is UTF-8, as RFC 5545 3.1.4 asks by default, for every calendar it accepts.", "quantifier": "all calendars of the Go types with any octets in their strings, all divisions into writes", "why_tests_cant": "It depends on every place where a string is written; one that copies octets as they are is enough.", "anchors": ["encoder.go:Encode", "params.go:ParamLanguage.encode", "params.go:encode6868", "types.go:writeTimezone", "types.go:URI.encode"]}
{"id": "C107", "title": "What the rest of the buffers holds does not matter", "statement": "What a Read of the unfolding reader returns (the count, the error and the octets counted), and so what Decode returns, depends neither on what the buffers held before the call nor on what the caller's reader does with the part of a slice it delivers nothing into; io.Reader allows it to use all of the slice as scratch space.", "quantifier": "all readers that keep to the contract of io.Reader, all they may do with the rest of the slices, all contents of the buffers, all states of the unfolder", "why_tests_cant": "Tests read from strings, which never touch the rest of a slice, into buffers of zeros; the code moves octets inside the buffer and looks again at octets behind those delivered.", "anchors": ["unfolder.go:unfolder.Read", "decoder.go:Decode"]}
{"id": "C108", "title": "Calls have nothing to do with one another", "statement": "Calls of Encode and Decode, made one after the other or at the same time, each come to what they come to alone: the same error, the same calendar, the same octets in the same calls of the writer. None waits for another one.", "quantifier": "all sequences of calls of Encode and Decode, all orders in which their steps may be taken, all calendars, all readers, all writers that keep to the contract of io.Writer (they do not change the octets they are given)", "why_tests_cant": "A test makes one call; that nothing is left behind by the calls before and at the same time is a statement about all histories and schedules. The package hands arrays of its own to the caller's writers and reads them again later.", "anchors": ["folder.go:eol", "folder.go:folder.Write", "unfolder.go:unfolder.Read", "types.go:booleanTrue", "types.go:booleanFalse", "types.go:Boolean.encode", "encoder.go:Encode", "decoder.go:Decode"]}
{"id": "C109", "title": "Decode returns as soon as it can, and not before", "statement": "Decode asks for more text exactly if what it has got so far does not decide what it has to return: there are two ways to go on with different results. As soon as the text decides the result, it returns it; a calendar, when the line end of its last line is there. The result is the one it returns when it is given everything at once, and the caller's reader is not called more often. (The text is that behind the unfolding of lines, in complete characters.)", "quantifier": "all beginnings of all texts, all ways to go on, all readers, all sizes of buffers, all points at which the input may stop for a while", "why_tests_cant": "Tests give the whole input; a decoder that waits for a line too many, or answers a character too early, passes them all. That there is no earlier point is a statement about all continuations.", "anchors": ["tokeniser.go:parseName", "tokeniser.go:parseParamName", "tokeniser.go:parseParamValue", "tokeniser.go:parseValue", "tokeniser.go:phrase", "tokeniser.go:newTokeniser", "decoder.go:Decode"]}
{"id": "C110", "title": "Two calendars on one connection", "statement": "If two calendars come one after the other on a connection, two calls of Decode return them.", "quantifier": "all pairs of calendars, delivered separately, all sizes of buffers that they fit in", "why_tests_cant": "Tests decode one calendar from a reader of its own; what a call leaves in the reader for the next one depends on the octets at the end of what was delivered.", "anchors": ["decoder.go:Decode", "unfolder.go:unfolder.Read", "tokeniser.go:newTokeniser"]}
{"id": "C111", "title": "What Decode accepts does not hang on the parser library's corner cases", "statement": "The phrases a document is read as are its content lines, each with exactly its name, its parameters with their values and its value. Whether Decode returns a calendar, and which, does not depend on what the parser library does where a token function names no next one, or where a phrase fails without an error. For documents whose last line has its line end the error does not depend on it either, and the library's own error for a phrase that fails without one is never returned.", "quantifier": "all documents, all parser libraries of the kind described", "why_tests_cant": "Tests run with one version of the library, on a few documents.", "anchors": ["tokeniser.go:newTokeniser", "tokeniser.go:parseName", "tokeniser.go:parseParamName", "tokeniser.go:parseParamValue", "tokeniser.go:parseValue", "tokeniser.go:phrase", "decoder.go:Decode"]}
{"id": "C112", "title": "Values that are read rune by rune: reading always ends, and gives what the text means", "statement": "Reading a duration, a text, a list of texts, an offset or the escapes in a parameter ends for every text, reads it from left to right up to the end or the first rune it may not take, and gives exactly what the text means. Escaping a parameter ends exactly for the texts without newline, caret and quote.", "quantifier": "all texts", "why_tests_cant": "Tests have a few texts; a call of the tokeniser too few or too many shows only on particular runs of runes, and a loop without end cannot be observed.", "anchors": ["types.go:Duration.decode", "types.go:decodeText", "types.go:Text.decode", "types.go:MText.decode", "types.go:UTCOffset.decode", "params.go:decode6868", "params.go:encode6868"]}
{"id": "C113", "title": "A reader that fails: no calendar from a part of one", "statement": "When the caller's reader fails, Decode returns a calendar only if all of it has been read, but perhaps for the line end of its last line, and then only if the parser library takes the failure for the end of the text. Had the text gone on, the result would have been the same calendar or one of two errors, never another calendar. A failure behind text that decides the result is not noticed; any other failure that the library reports is what Decode returns. (The text is that behind the unfolding of lines.)", "quantifier": "all readers, all points at which they fail, all errors, all ways in which the parser library may treat them, all texts, all ways to go on", "why_tests_cant": "Tests have readers that do not fail. A calendar from half a document would show only where the connection breaks at one particular octet.", "anchors": ["decoder.go:Decode", "unfolder.go:unfolder.Read", "tokeniser.go:parseValue", "tokeniser.go:parseName", "sections.go:Calendar.decode"]}
{"id": "C114", "title": "From Encode to Decode through a pipe", "statement": "If Encode writes a calendar to a pipe without a buffer (io.Pipe), where a call of Read gets octets of one call of Write, then Decode at the other end returns the calendar that it would return if it read the same text from a file.", "quantifier": "all calendars that come back from a file, all buffer sizes of the parser from 78 octets on, all environments (time zones, URIs, floats)", "why_tests_cant": "Tests encode to a buffer and decode from one. Whether a pipe works depends on where Encode's calls of Write begin and end, for every calendar, and a test cannot see that a call never returns.", "anchors": ["encoder.go:Encode", "folder.go:folder.Write", "decoder.go:Decode", "unfolder.go:unfolder.Read", "sections.go:Calendar.encode"]}
{"id": "C115", "title": "Lines are folded only where they must be", "statement": "A text in which no line has more than 75 octets is written as it is, and any other is changed. A line is broken only in front of a character with which it would have more than 75 octets, so a line that goes on in the next one has at least 72 octets. What is written is the only way to fold the text into lines of at most 75 octets with such folds alone, and no other way to fold it into such lines is shorter. (For texts in which carriage returns and line feeds stand only together, at the ends of lines.)", "quantifier": "all such texts, of any lines and characters, however cut into calls of Write", "why_tests_cant": "A fold too many is undone by the reader, so tests by round trip do not notice; the places of folds depend on the widths of all characters before.", "anchors": ["folder.go:folder.Write", "folder.go:folder.WriteString", "encoder.go:Encode"]}
{"id": "C116", "title": "How long a line can become at all", "statement": "Whatever is in the calendar, the names of its time zones included, and however the writer behaves: of what Encode sends, at most 79 octets are between two that are CR or LF, and at most 75 unless 177 carriage returns in a row are written. So a line of more than 79 octets has a lone CR or LF in it.", "quantifier": "all calendars, valid or not, all sequences of calls of Write with any octets, UTF-8 or not, all writers, failing at any call", "why_tests_cant": "The bound must hold for all strings in all positions; the column is counted in an octet, and only certain numbers of carriage returns make it overflow.", "anchors": ["folder.go:folder.Write", "folder.go:folder.WriteString", "encoder.go:Encode"]}
{"id": "C117", "title": "How often the caller's reader is called", "statement": "While Decode reads a document of n octets, whether it returns a calendar or an error, a reader that delivers something with every call is called at most n + 1 times, exactly so often if it delivers octet by octet to its end. No reader is called less than once for each piece of the size of the largest buffer. If nothing is folded, there are at most two calls for each time the parser asks.", "quantifier": "all documents, all readers that deliver at least one octet with every call that returns no error (the last part: all readers), all sizes of buffers", "why_tests_cant": "The unfolding reader asks on its own at line ends and behind folds, depending on where the reader cuts its data; tests read from memory.", "anchors": ["unfolder.go:unfolder.Read", "decoder.go:Decode"]}
{"id": "C118", "title": "How often the caller's writer is called", "statement": "Encode has no buffer: each piece of text written by the encoder reaches the caller's writer at once, in one call, or with at most two calls more for each line break that is put into it, of which there is at most one for every 71 octets. So there are at most 73 calls of Write for every 71 octets of the text, whatever the writer does; and a call of Encode that returns nil has called the writer at least once for each piece that is not empty. That is at least twice for each property of the calendar, and for the calendar and each of its components.", "quantifier": "all calendars, all writers (also ones that fail, or accept less than they are given), all sequences of writes", "why_tests_cant": "How many calls there are depends on where every piece falls in its line; tests write to memory and look at the octets, not at the calls.", "anchors": ["folder.go:folder.Write", "folder.go:folder.WriteString", "encoder.go:Encode"]}
{"id": "C119", "title": "What a failed Encode leaves behind is not taken for a calendar", "statement": "If the writer fails while Encode writes to it (a full disk, a closed connection), what it has accepted is the first part of what Encode would have written, and Decode does not return a calendar when it reads that.", "quantifier": "all calendars, all writers that keep the contract of io.Writer, all points at which they fail, all numbers of octets accepted in the call that fails", "why_tests_cant": "There is a point of failure behind every octet of every output, and each leaves another file.", "anchors": ["encoder.go:Encode", "folder.go:folder.Write", "decoder.go:Decode"]}
{"id": "C120", "title": "Encode tried again into the same file gives no mixture", "statement": "If Encode has failed, and is called again with the same or with another calendar so that it writes behind what the first call has left, Decode never reads a mixture of both from the file: it returns an error, or the second calendar. It returns the second calendar only if the first call has left nothing, or the line BEGIN:VCALENDAR and a part of the name of the first property.", "quantifier": "all pairs of calendars that pass validation and are written line by line, all octets at which the first file may break off, all writers and environments", "why_tests_cant": "There are as many places to break off as characters in a text, and as many texts as calendars; the line where the two texts meet may be a property, a BEGIN or an END line, and the END lines of the second calendar might close blocks of the first.", "anchors": ["encoder.go: Encode", "decoder.go: Decode", "sections.go: (*Calendar).encode, (*Calendar).decode, decodeDummy"]}
{"id": "C121", "title": "What is written into a file behind a calendar makes no difference", "statement": "If Decode reads what Encode has written, it reads the same calendar from the file when anything has been written behind it: another calendar, a part of one that a failed call has left, or any other octets.", "quantifier": "all calendars that pass validation and are written line by line, all octets behind them, all environments", "why_tests_cant": "There is no end of things to write behind a calendar; whether they reach into the last line depends on folds, which are removed before lines are told apart.", "anchors": ["encoder.go: Encode", "decoder.go: Decode", "unfolder.go: (*unfolder).Read", "sections.go: (*Calendar).decode"]}

# Design: a Lean 4 model of MJKWoolnough/ics

The Go package in /repo decodes and encodes iCalendar (RFC 5545) documents.  The Lean project in `lean/` holds a model of it, function
by function, and proofs of the properties in `properties.jsonl`.  `MANIFEST.json` names the theorems of each property.

## How the files are organised

* `lean/Verif/*.lean`: the model, and lemmas (`…Lemmas.lean`).
* `lean/Verif/Spec/*.lean`: what the properties are stated with.  These files use the data types of the model, but not its functions
  for decoding, encoding or validating.
* `lean/Verif/Props/*.lean`: the property theorems, named `Cnn_…`, with a concrete case beside each.  A name that ends in `_partial`
  says that the theorem needs more hypotheses than the claim; `…_full_claim_is_false` and similar names are proofs, with a witness, that the claim fails for
  this code.
* `lean/Verif/RepoTests.lean`: the repository's own test vectors, replayed on the model.
* `tools/gen_tables.py` reads params.go, properties.go and sections.go as text and prints `lean/Verif/Tables.lean`; with `--check` it compares.
* `tools/regen_go.py` goes the other way: it writes the 270 `decode`, `encode` and `valid` functions of these three files again from the tables of the model, from one template for each shape, and compares them with the source character by character.
* `tools/check_messages.py` reads sections.go, properties.go and params.go as text and compares the names and texts in their error messages with those in Message.lean and Wording.lean.
* `tools/mkmanifest.py` writes MANIFEST.json; `tools/axioms.py` writes the list of axioms below.
* `lean/Verif/Props/Cases.lean`: concrete cases that meet the hypotheses of theorems which have none beside them in their own file.
* `seeded/LOG.jsonl`: wrong versions of the model that were tried, and the theorems that failed.

| Go source | model | specification |
|---|---|---|
| - (results, environment) | `Basic` | |
| `eol`, `booleanTrue`, `booleanFalse` (folder.go:16, types.go:67-70) | `Shared` | `Spec/Shared` |
| unicode/utf8 | `Utf8` | |
| folder.go | `Folder`, with the calls of the writer `Writer` | `Spec/Folding`, `Spec/FoldingOctets`, `Spec/Writer` |
| unfolder.go | `Unfolder`, with whole buffers `Memory` | `Spec/Folding`, `Spec/Cuts`, `Spec/Calls`, `Spec/Memory` |
| tokeniser.go | `Tokeniser`, function by function with tokens and phrases `Tokens`, with text that is still coming in `Demand`, with a reader that fails `Failing` | `Spec/ContentLine`, `Spec/Tokens`, `Spec/Demand` |
| types.go | `Num`, `Text`, `Duration`, `Scalars`, `Calendar`, `Time`, `Recur`, `Value`; with every call of the string tokeniser `Scanned` | `Spec/Duration`, `Spec/Values`, `Spec/Time`, `Spec/TimeMeaning`, `Spec/Recur`, `Spec/Rule`, `Spec/Meaning` |
| params.go | `Param`; `decode6868`, `encode6868` with every call of the tokeniser `Scanned` | `Spec/Params`, `Spec/Meaning` |
| properties.go | `Property`, rows in `Tables` | `Spec/PropertyLine`, `Spec/Rfc`, `Spec/RfcValues` |
| sections.go, sections_alarm.go | `Section`, rows in `Tables` | `Spec/Document`, `Spec/Structure`, `Spec/Rfc`, `Spec/RfcExact`, `Spec/Edits`, `Spec/Alike`, `Spec/Valid`, `Spec/GoTypes` |
| decoder.go, encoder.go | `Codec` | the same |
| texts of errors (errors.go, fmt.Errorf calls) | `Message`, `Refusal`, `Wording` | `Spec/Message`, `Spec/Refusal`, `Spec/Wording`, `Spec/Spelling` |
| which error | the models above | `Spec/Fault`, `Spec/Errors`, `Spec/Wrong`, `Spec/Refused`, `Spec/TextFault`, `Spec/Panics` |
| the calls of `Write` and `WriteString` in all `encode` methods (types.go, params.go, properties.go, sections.go) | `Emit` | `Spec/Emit` |
| nil pointers in a calendar (sections.go, properties.go) | `Pointers` | `Spec/Pointers` |
| `Text.decode`, `Text.encode` on strings that are not UTF-8 (types.go) | `TextOctets` | `Spec/TextFault` |
| all `encode` and `valid` methods on strings that are not UTF-8 (types.go, params.go, properties.go, sections.go) | `Raw`, call by call `RawEmit` | `Spec/Raw` |
| nesting of the calls of `Decode` (sections.go) | `Depth` | `Spec/Depth`, `Spec/DepthExact` |
| decoding one line at a time (sections.go, sections_alarm.go) | `Machine` | `Spec/Waiting` |
| what depends on the machine (its time zones, its width of `int`) | the models above | `Spec/Machines`, `Spec/LocalTime`, `Spec/Looked` |
| types of params.go and properties.go that no component uses | `Unused` | |
| several documents, several steps | the models above | `Spec/Again`, `Spec/Characters`, `Spec/Compose`, `Spec/ComposeExact`, `Spec/Enums`, `Spec/Exact`, `Spec/ExactEach`, `Spec/Exchange`, `Spec/Found`, `Spec/Output`, `Spec/Pieces`, `Spec/Readable`, `Spec/Reading`, `Spec/Size`, `Spec/Unbroken`, `Spec/Waiting`, `Spec/Writable`, `Spec/Written`, `Spec/WrittenDoc` |

properties.go and sections.go are generated by shell scripts.  Each Go function in them is an instance of one of a few code patterns (a property that is one of several
names; a property with parameters and a value of one or several types; a component).  The model has one Lean function per pattern and a table row per Go type, with
the lines of its functions.  `gen_tables.py` reads every function on its own (struct, `decode`, `encode`, `valid`) and stops if one deviates from the pattern or if they
disagree, except where the row records the difference (the name under which a field is read and the name under which it is written).  `regen_go.py` writes all these functions
again from the rows and finds no difference to the source, so that nothing in them is left out but what the Lean function of the pattern leaves out.  That the rows are right
with respect to RFC 5545 is not assumed: `Spec/Rfc` has separate lists of components, properties, multiplicities, value types and parameters written from the RFC, with an
explicit list of the library's differences, and C49–C51 are stated with these.

## How Go is represented

* `Res.ok`, `Res.err e` (`e` is the sentinel that `errors.Is` would find; its text is modelled apart, in `Message`, `Refusal` and `Wording`), `Res.panic`.
* Code that may not end: `Option`/`Run` with `none`/`running` for "no number of steps is enough", shown from a small-step machine (`encode6868`, `Unfolder`).
  Loops that consume input have fuel equal to the input left, and lemmas show that it suffices.
* Strings above the octet layer are `List Char` (valid UTF-8).  Folder and unfolder work on octets.  `Raw` has `Encode` for strings of any octets, and C105 shows that it does what
  `Codec` does with U+FFFD for wrong octets.
* Times: seconds since year 1, nanoseconds, and the location with its pointer identity (two `LoadLocation` calls for one name give distinct pointers, as in Go; `==` on times
  sees this).
* Floats: IEEE 754 bit patterns.
* Writers: any sequence of results of `Write`, including short writes and errors.  Readers: any schedule of pieces; in `Memory` also anything done to the rest of the slices (C107).  In `Shared` writers may also change the octets they are given.
* How `Encode` divides the document into writes is a parameter (`cut`) in most theorems, which hold for all divisions; `Emit` has the calls of the `encode` methods one by one (C103, C104).
* What the Go type checker guarantees of a calendar is the hypothesis `typed`.

## Trusted base

* Lean's kernel.
* The axioms `propext`, `Classical.choice`, `Quot.sound`, per theorem in the list at the end.  No other axioms, no `sorry`, no `native_decide`, no `bv_decide`.
* That the model is the code.  It was written by reading the Go source; the code was not run.  As evidence, `lean/Verif/RepoTests.lean` replays on the model every vector of the
  repository's own tests (folder, unfolder, tokeniser, types, decoder, encoder, examples; 156 vectors): the model gives what the tests expect on each.  These are tests of the
  model, no theorem depends on them.
* `vimagination.zapto.org/parser` is not in the sandbox.  Its documented behaviour is assumed: `Accept`, `AcceptRun`, `ExceptRun` stop before the first rune that does not match and
  return it (-1 at the end), `Next` consumes a rune, `Get` returns what was consumed since the last `Get`, `GetPhrase` returns the phrase, a `PhraseDone` phrase with empty data at
  the end, or the error of the tokeniser.  Behind a last line without line end, where the tokeniser has returned a nil state, the next phrase is taken to be `PhraseDone`
  (C111: an error instead would change no calendar that Decode returns).
  Octets that are not UTF-8 are taken for U+FFFD, one by one, as `unicode/utf8` does; a tokeniser of a string gives the octets themselves from `Get` (so in `encode6868`), that of a
  reader the UTF-8 of the runes.  A tokeniser passed by value (`decodeText`, types.go:1251) shares its position with the original: it holds a pointer to its source.
* From the Go library, written down as Lean definitions from its documentation: `time.Parse/Format/Date` for the layouts in use, `encoding/base64` (in `Emit` also the calls its encoder makes),
  `strconv.ParseInt/ParseUint/ParseBool/FormatInt`, `strings.ToUpper/Split/SplitN/Join`, `unicode/utf8`.  Of the table of upper case letters outside ASCII only this is used: the upper case of U+0131 and U+017F is I and S,
  no other rune outside ASCII has one in ASCII, and upper case letters are left alone.  The table itself is an opaque constant with these laws (`upperTable`).
* Parameters of the model (`Env`), so that the theorems hold for whatever they do: `net/url` (`Parse`, `String`), `strconv.ParseFloat/FormatFloat`, the tz database, `time.Local`.
  Where a theorem needs a law, such as that a URL is read back from its own text, the law is a hypothesis on the values concerned.

## What is not modelled

* Strings that are not valid UTF-8, above the octet layer, except those given to `Encode` (TextOctets and Raw; C84, C105, C106).
* Nil pointers, except where given to `Encode` (Pointers, C87).  Alarm types defined outside the package (by embedding one of the five) are refused like a nil `AlarmType`.
* What the parser library does when a reader returns an error other than EOF: a parameter in `decodeFailing` (Failing, C113), elsewhere taken as the end of the input.  `decodeDoc` has the whole text before it decodes; `decodeDemand` (Demand, C109) has what has arrived, and assumes of the parser library that it reads no further than the character it looks at (with `bufio.Reader`, `utf8.FullRune`).
* What the errors of the standard library say.  All other texts of errors are modelled (Message, Refusal and Wording, C89 to C92), with these as parameters.
* Aliasing, except of the arrays at package level (Shared, C108); memory.  The package starts no goroutines; for calls made in several, a call of `folder.Write` or of `unfolder.Read` is one step.  For C114 an `io.Pipe` is taken to be as documented: a call of `Read` gets octets of one call of `Write`, and nothing is kept in between.
* The shell scripts and `.gen` files from which the Go code was generated.

## Properties

Where the status is "partial", the claim as written in properties.jsonl is false for this code, and this is proved, or the theorem has a hypothesis that the claim has not; the notes
in MANIFEST.json say which.

<!-- properties -->
| id | property | modelled by | proof | status |
|---|---|---|---|---|
| C01 | Output lines are at most 75 octets | `Folder.write` (folder.go) over octets, with the column as in Go | invariant on the column over any sequence of writes; refinement to a one-pass specification (Spec/Folding); a counterexample with carriage returns in a zone name (Props/LongLine) | partial |
| C02 | Folding never splits a character | `Folder.write` | the same refinement: breaks are only between characters | proved |
| C03 | Folding is transparent | `Folder.write` | removing CR LF SPACE from the output gives back the input, induction over characters | proved |
| C04 | Output does not depend on write granularity | `Folder.writes` | writing pieces equals writing the concatenation: invariant | proved |
| C05 | A failing writer receives a prefix and the error is reported | `Sink`: a writer that fails at any octet, any way | induction over calls; the error sticks | proved |
| C06 | Encode writes nothing when validation fails | `encode` | case analysis of `valid` | proved |
| C07 | Unfolding is independent of how the reader delivers data | `Unfolder.read` over any schedule of pieces | counterexamples; theorems for schedules that cut outside markers, and for reading octet by octet; an invariant: right so far, or wrong for good | partial |
| C08 | Reading terminates | `Unfolder` as a machine whose loop may not end | exact condition for the loop, for a `Read` and for `Decode` to end; witness of a hang | partial |
| C09 | No input octets are lost or invented by unfolding | `Unfolder` | witnesses of an invented and of lost octets; equality for well cut schedules | partial |
| C10 | Content lines survive printing and parsing | `Tokeniser`, `Line` | printing then parsing, induction over the characters and the parameters | proved |
| C11 | Parsed lines contain only permitted characters | `Tokeniser` | inversion of the parser against Spec/ContentLine | proved |
| C12 | Decode never panics | `Res.panic` | two witnesses; everything that panics has one of the two causes; exactly which documents (Spec/Panics) | partial |
| C13 | Decode accepts only a VCALENDAR component that is properly closed | `decodeStream` | declarative reading of documents (Spec/Structure), both directions | partial |
| C14 | Anything after the calendar is ignored | `decodeStream` | decoding depends only on the lines it took | proved |
| C15 | Truncated documents are never accepted | `decode`, `encode` | every proper prefix of an outline fails to close a block | partial |
| C16 | Text values round-trip | `Text.encode/decode` | round trip; exact language | proved |
| C17 | Multi-text values round-trip | `MText.encode/decode` | round trip; exact language | proved |
| C18 | Durations round-trip | `Duration.encode/decode` | round trip by cases of the units | partial |
| C19 | Duration parsing follows the RFC 5545 grammar | `Duration.decode` | the state machine of the loop against Spec/Duration and Spec/TimeMeaning, both directions | partial |
| C20 | UTC offsets round-trip | `UTCOffset.encode/decode` | arithmetic of digits | partial |
| C21 | Dates and times round-trip | `Time`, `Calendar`: proleptic Gregorian calendar, zones as functions | calendar arithmetic checked against a day by day specification | partial |
| C22 | Only real calendar dates are accepted | `Date.decode`, `DateTime.decode` | exact language against Spec/Time | partial |
| C23 | Recurrence rules round-trip | `Recur.encode/decode` | round trip for rules in the ranges of the RFC | partial |
| C24 | Decoded recurrence rules are in range | `Recur.decode` | invariant over the loop of the parts | proved |
| C25 | Binary attachments round-trip | `Binary` | against a specification of Base64 over bits (Spec/Values) | proved |
| C26 | Integers and booleans round-trip and are range checked | `Integer`, `Boolean` | exact languages | proved |
| C27 | Periods round-trip | `Period` | round trip, witnesses | partial |
| C28 | Geographic positions can be encoded | `TFloat`, on IEEE bit patterns | the test is inverted: for all finite positions | partial |
| C29 | Parameter text escaping round-trips (RFC 6868) | `encode6868` as a machine, `decode6868` | divergence by an invariant; exact result of decoding | partial |
| C30 | Encode terminates | `encode : Run EncOut` | exact condition for Encode to return | partial |
| C31 | Parameters round-trip | `PKind.encode/decode` | round trip per kind | partial |
| C32 | Parameters a property knows appear at most once | `PSpec.decode` | fold over the parameters | proved |
| C33 | Exactly one value alternative | `PSpec.decode` | the result has one value | proved |
| C34 | Required properties are enforced on decode | `Tab.decode` | declarative reading, then counting lines | partial |
| C35 | Single-occurrence properties are enforced on decode | `Tab.decode` | the same | partial |
| C36 | Mutual-exclusion and dependency rules are enforced on decode | `Tab.finish` | the rules hold of every section of the result | proved |
| C37 | Alarm DURATION and REPEAT occur together | `Tables` for alarms | the rule of the code is not the rule of the RFC: both directions | partial |
| C38 | Validation on encode agrees with decode | `Cal.valid`, `decodeDoc` | witness; exactly which written calendars are read (`Spec/Readable`) | partial |
| C39 | Repeated properties keep order | `Tab.decode` | declarative reading: values in the order of the lines | partial |
| C40 | Unknown properties are ignored | `Tab.decode` | simulation with a line put in anywhere | partial |
| C41 | Unknown components are skipped | `skipBlock` | simulation with a block put in anywhere | partial |
| C42 | Order of differently named properties does not matter | `Tab.decode` | simulation with two lines exchanged | proved |
| C43 | Names are case-insensitive | `decodeStream` | simulation with lines in another case | partial |
| C44 | Encode then Decode is the identity | `encode`, `decode` down to octets; `foundCal` (Spec/Found) | composition of all round trips; what is read of each line, and the grammar of documents (C74) | partial |
| C45 | Decoded calendars can be encoded | `Cal.valid` after `decode` | invariants of decoded values | partial |
| C46 | No content injection | `encodeDoc` | what is written is parsed to the lines of the outline; exactly which calendars are written line by line (`Spec/Unbroken`) | partial |
| C47 | LAST-MODIFIED is preserved | `Tables` | the field is written under a name that is not read | partial |
| C48 | Every field is encoded under a name that decodes to the same field | `Tables` | finite check of the tables, all rows | partial |
| C49 | Decode accepts exactly the calendars RFC 5545 describes | `decode` against Spec/Rfc | tables written down from RFC 5545, lists of differences, equivalence of the declarative readings | partial |
| C50 | A property line is read with the types and parameters RFC 5545 gives the property | `PSpec.decode` against Spec/PropertyLine | both directions, independent of the decoders | proved |
| C51 | No RFC 5545 property is dropped by Decode | `Tables` against Spec/Rfc | exact list of names | partial |
| C52 | Lists of times are read | Spec/RfcValues | every accepted document has single values there | partial |
| C53 | REQUEST-STATUS values of RFC 5545 are read | Spec/RfcValues | no accepted document | partial |
| C54 | The RELATED parameter of TRIGGER is kept | `PState.step` | the parameter is dropped | partial |
| C55 | Documents that say the same line by line give the same calendar | Spec/Alike | lines with the same reading, then all documents by induction over the structure | proved |
| C56 | Recurrence rules mean what RFC 5545 says | `Recur.decode` against Spec/Rule | both directions; RFC rules are a subset | partial |
| C57 | A value has the meaning its text says, for every value type | `Val.decode` against Spec/Meaning | both directions, type by type | proved |
| C58 | A parameter has the meaning its text says, for every parameter | `PKind.decode` against Spec/Meaning | both directions, kind by kind | proved |
| C59 | Encode accepts exactly the calendars whose every property is fine | `Cal.valid` against Spec/Valid | both directions, through all components | proved |
| C60 | Reading, writing and reading again changes nothing | `decodeDoc`, `encodeDoc` against Spec/Again | decoded values are among those of C44; choice of instants is idempotent in zones with isolated changes | partial |
| C61 | Encode returns on everything that Decode gives | `encode` after `decodeDoc` | C30 with invariants of decoded parameters | partial |
| C62 | A local time with a time zone is the instant that RFC 5545 says | `instant`, `DateTime.decode` | case analysis on the one change of offset near the reading; witnesses | partial |
| C63 | What Encode writes is read back from a file or from memory, whatever the sizes | `decodeReader`, `Unfolder.read`, `encode`, readers `fullReader` | composition of the round trip with the unfolding theorems; for every buffer size a calendar on which the first piece never gets unfolded; a witness for a changed text | partial |
| C64 | Lines folded by others are understood | `decodeReader`, `Unfolder.read`, `tokenise` | induction over the way of folding; locality of Decode and absence of CR LF HTAB in accepted lines | partial |
| C65 | Decode settles the result as early as the lines allow and reports the first problem | `decodeDoc`, `Tab.decode`, `alarmCollect`, `skip` | dichotomy settled or starved for every decoder of lines, by induction on the number of lines | proved |
| C66 | Components are independent of each other | `decodeDoc`, `Tab.decode` | both directions of the refinement (SectReads), splitting of the blocks of a calendar; counterexample in lower case | partial |
| C67 | Different calendars are written differently | `encodeDoc`, `encode` | corollary of the round trip; counterexample with an empty parameter | partial |
| C68 | Enumerations have the names of the RFC, read in any case and written back | `PSpec.decode/encode/valid`, `PKind.decode/encode/valid`, `ClosedEnum` | finite tables compared with the RFC; for all texts and numbers by uniqueness of the position in a list | proved |
| C69 | Decode does not wait for more input than the calendar | Unfolder, WaitingLemmas | case analysis on the end of the delivered piece; induction on the fuel for the recorded calls | partial |
| C70 | A document that is cut off is reported as ending too early | `decodeDoc`, Spec/Edits (`Inside`) | the reading of the accepted document gives the place of the cut; what each decoder does at the end of the lines | partial |
| C71 | The first wrong line is the one that is reported | `decodeDoc`, Spec/Edits (`Inside`) | the decoder after the lines before is known up to the continuation (`Reaches`); one step of the section decoder | partial |
| C72 | The outcome of Decode is that of the first line at fault | `decodeDoc`, Machine.lean (decoders as machines that read one line at a time), Spec/Fault | the decoders are the runs of a machine; simulation between the machine and the automaton of open blocks; one step per line | proved |
| C73 | Each error means what it says | `decodeDoc`, Spec/Errors | C72, and the errors of each decoder of values, parameters and content lines | proved |
| C74 | Exactly the documents that are accepted, and the calendar each of them is read as | `decodeDoc`, Spec/Exact | induction on the lines for each level of nesting, in both directions | proved |
| C75 | Lines are judged one by one | `decodeDoc`, Spec/Exchange | a relation between two runs on lines that stand for each other, by induction on the lines (as parametricity) | proved |
| C76 | A document means the same on every machine | `decodeDoc` in two environments, Spec/Machines, Spec/Looked | C75 between two machines; each value decoder related to itself; exactly: two runs of the step machine over the same lines, equal as long as what is read is | partial |
| C77 | Times that RFC 5545 wants in UTC are in UTC | `decodeDoc` | C75, exact reading of times (C22) | partial |
| C78 | Numbers are in the ranges of RFC 5545 | `decodeDoc` | C75, exact reading of numbers (C26) | partial |
| C79 | An event ends after it begins | `decodeDoc` | C75 | partial |
| C80 | A document may use the time zones it defines | `decodeDoc` | a statement about all properties of decoded calendars; C49 | partial |
| C81 | Values are written as RFC 5545 texts | `Val.text_`, Spec/Written | the theorems about single types (C16–C28, C56) collected; uniqueness of the parts of a rule | partial |
| C82 | Documents are written as RFC 5545 wants them | `encodeDoc`, Spec/WrittenDoc | C81 and C10 for each line; names of lines counted through the tables for each component; nesting from C13 | partial |
| C83 | Exactly which calendars come back | `encodeDoc`, `decodeDoc` | If the lines are read as the same calendar, each property line is (tables, uniqueness of the nesting); a value read from its own text is in the range of the decoder; a URI written without quotes is refused, whatever the line is then read as; the converse is C44 | proved |
| C84 | Texts that are not UTF-8 | `Text.encodeB`, `MText.encodeB`, `Text.validB`: the loops over octets as in Go | Induction over the runes of the octets, good and bad; refinement to the model over runes | proved |
| C85 | Which error a wrong text gets | `ValWrong`, `ParamWrong`, `PropWrong`, `TextFault`: the errors in terms of the text | Exactness (iff) from the exact meaning of right texts and, where there are several errors, from the loops: the longest right beginning and what follows it | proved |
| C86 | Which error Encode returns | `First`, `ValRefused`, `ParamRefused`, `PropRefused`, `calEntries` | Validation as a list of checks made one after the other, over properties, sections and the calendar | proved |
| C87 | When Encode panics on nil pointers | `CalP.entries`, `CalP.filled` | The checks of `Encode` one after the other, with nil pointers among them; elementwise congruence to the model without pointers | proved |
| C88 | How deep Decode recurses | `begins`, `OpenAtMost`, `deep`, `WholeBlock`, `HasAlarm` | Induction over the loops with a copy of them that counts calls; the greatest number of open blocks as invariant | proved |
| C89 | What the error of Decode says | `trail`, `home`, `Says`, `endSays` | The decoder with texts, one line at a time, beside the one without; its states related to the open blocks as for C72 | proved |
| C90 | What the error of Encode says | `calPlaces`, `Place.text` | The checks as a list of places; the text is that of the first one that fails | proved |
| C91 | What the error of a property says | `PropSays`, `ParamSays`, `ValSays`, `DurSays`, … | The decode methods with texts beside those without; the causes by type as for C85 | proved |
| C92 | Why Encode refuses a calendar, in words | `PropSaysInvalid` | The checks as lists in order, as for C86 | proved |
| C93 | What a Read of the unfolded input returns | `Unfolder.read` over all readers | induction over the steps of both loops; a witness for the negative count | partial |
| C94 | Written, read and written again, the text stays the same | `foundCal`, `ValStays`, `ValSettled` (Spec/Found) | what is found as a function of what was written, line by line (C44); the lines of what is found are never more, so equal texts have equal lines in equal places | partial |
| C95 | Exactly the texts that Decode accepts, character by character | `TextBegins`, `Clean` (Props/LineEnds), `ExactDoc` (Spec/Exact) | C74 (grammar over lines), C10 and C11 (a text is its lines), C65 (settled or not) | proved |
| C96 | Folding keeps octets that are not UTF-8 | `Folder.write` over octets; `Pieces`, `FoldedAt` (Spec/FoldingOctets) | the refinement of C01 to C04 with characters and single octets as pieces | partial |
| C97 | What Decode keeps is bounded by the size of the document | `decodeDoc`; `calSize` (Spec/Size) | the cost of the lines left and the size of what is kept never grow together: induction over the loops of the sections; a superadditive measure of texts that bounds `decode6868` | proved |
| C98 | What Encode writes is put together from its parts | `encode`, `Cal.valid`; `composed`, `WritesOut` (Spec/Pieces) | every piece of text is empty or ends in CR LF, after which the folder is at column 0 again; induction over pairs of a check and a text | proved |
| C99 | What Encode writes is bounded by the size of the calendar | `encode`, `decodeDoc`; `PropFits`, `calOutside`, `Moderate` (Spec/Output) | a bound for each kind of value and each line, summed over the sections; for folding the potential 3·column; for documents the measures of C97 | proved |
| C100 | A reader that has failed is not asked again | `Unfolder.read`, `readAll`; `Calls` (Spec/Calls) | mutual induction over the two loops; what is to be read again is not more than what was delivered | proved |
| C101 | How the caller's writer is called | `encodeTo`, `WFolder` (Writer); `Handed`, `HandedOut` (Spec/Writer) | induction over the loop; simulation by a writer that takes everything, and by `Folder` | proved |
| C102 | Where the characters come from | `decodeDoc`, `encodeDoc` (Codec), `encodeTo` (Writer); `calTexts`, `calLibrary`, `OfFormat` (Spec/Characters) | induction with any set of characters that is closed under the escapes | proved |
| C103 | How far Encode comes when it does not return | `encodeCalls`, `Cal.said` (Emit); `textsInOrder`, `mendCal`, `StandIn` (Spec/Emit) | the calls put together are the text; at the first such text the calls end where the text of the mended calendar has it, by induction over the document | proved |
| C104 | What each call of the caller's writer is given | `encodeCalls` (Emit), `WFolder` (Writer); `Unbroken` (Spec/Unbroken) | every call of the folder is without line ends but for one at its end; an invariant of the folder | partial |
| C105 | Calendars whose strings are not UTF-8 | `encodeRaw`, `encodeOctets` (Raw) over octets; `softCal`, `hardCal` (Spec/Raw) | refinement to the model over runes: octets below 128 are runes wherever they stand, so the octets may be divided in front of them; from the parameters up to the document | proved |
| C106 | What Encode writes is UTF-8 | `encodeOctets` (Raw), `encodeCallsB` (RawEmit); `calAsIs`, `Put` (Spec/Raw) | the same induction; replacing makes a string longer, so two strings joined are UTF-8 only if both are; each call of Write is given UTF-8 or one of these strings | partial |
| C107 | What the rest of the buffers holds does not matter | `MUnfolder.read`, `decodeMemory` (Memory); `LeavesAlone` (Spec/Memory) | simulation of the model with whole buffers by the one without, over the mutual recursion; counterexample | partial |
| C108 | Calls have nothing to do with one another | `runCalls`, `Machine.schedule`, `encodeShared`, `decodeShared` (Shared); `Spares`, `Fair`, `alone` (Spec/Shared) | invariant: the arrays at package level stay as they are; induction over the sequence and over the schedule; counterexamples | proved |
| C109 | Decode returns as soon as it can, and not before | `decodeOpen`, `decodeDemand` (Demand); `Unsettled`, `CutShort` (Spec/Demand) | each parser on the text so far agrees with the parser on any longer text; where it asks, two ways to go on with different errors | proved |
| C110 | Two calendars on one connection | `decodeDemand` (Demand); `connection`, `afterCalls` (Spec/Demand) | what one read leaves behind (C69); the first line without its first letter; counterexample | partial |
| C111 | What Decode accepts does not hang on the parser library's corner cases | `Tokens`, `Parser`, `decodeTokens` (Tokens); `lineTokens`, `NoLastLineEnd` (Spec/Tokens) | each function against the part of `parseLine` it does; the phraser against all of it | proved |
| C112 | Values that are read rune by rune: reading always ends, and gives what the text means | `Duration.scan`, `scanText`, `Text.scan`, `MText.scan`, `UTCOffset.scan`, `scan6868`, `rounds6868` (Scanned); `DurationMeans`, `LooseText`, `LooseList`, `LooseOffset`, `rfcDec6868` | run against run, then the descriptions of the texts | proved |
| C113 | A reader that fails: no calendar from a part of one | `decodeFailing`, `decodeBroken` (Failing), with the treatment of failures by the library as a parameter | the state in which the last line closes the calendar; that line with a longer value; C109 | proved |
| C114 | From Encode to Decode through a pipe | `encodeCalls` (Emit), `decodeDemand` (Demand); `pipeReader` (Spec/Pipe) | invariant on the calls of the folder: no fold behind or in front of a line end; induction over the calls of `Read` up to the first fold; counterexample | partial |
| C115 | Lines are folded only where they must be | `Folder.write` | the one-pass specification of C01 against the lines of the text, induction over characters | proved |
| C116 | How long a line can become at all | `Folder.loop` | column and length of the run since the last CR or LF, induction over the pieces of the strings | proved |
| C117 | How often the caller's reader is called | `readAll`, `delivered` (Unfolder); `Calls` (Spec/Calls); `decodeDemand` (Demand) | induction on the calls (C100); one Read where nothing is folded | proved |
| C118 | How often the caller's writer is called | `WFolder.writes` (Writer); `Cal.said`, `encodeCalls` (Emit) | induction on the writes; `SameCalls` (C101); `foldStr_size` (C99) | proved |
| C119 | What a failed Encode leaves behind is not taken for a calendar | `encodeCalls` (Emit), `WFolder.out` (Writer), `decodeReader` | what was accepted is a first part (C101); then C15 and C113 | partial |
| C120 | Encode tried again into the same file gives no mixture | `encodeDoc`, `decodeDoc`, `encodeCalls`, `decodeReader`, `foldStr`, `runes` | BEGIN and END lines counted up to every line of the two texts; the line where they meet by its name; two VERSION lines (C34); what a fold or a character cut in two leaves before a letter | partial |
| C121 | What is written into a file behind a calendar makes no difference | `encodeDoc`, `decodeDoc`, `decodeReader`, `foldStr`, `runes` | no fold reaches over the last letter; C14 behind it; a line end and SPACE as the counterexample | partial |
<!-- end of properties -->

## Defects of the code that the proofs found

1. The encoder of RFC 6868 escapes never returns for a newline, a caret or a quote (C29, C30); a document with `CN=a^'b` decodes to a calendar that cannot be encoded.
2. The decoder of RFC 6868 escapes keeps the escape beside what it stands for (C29).
3. ALTREP, DIR, SENT-BY, MEMBER, DELEGATED-FROM/TO are written without the quotes that decoding demands (C31).
4. The validation of GEO is inverted: only NaN and infinities pass (C28).
5. LAST-MODIFIED is read under LAST-MOD, so it is lost (C47, C48).
6. EMAIL and URI alarms are accepted only if exactly one of DURATION and REPEAT is given (C37).
7. Validation before encoding does not look at the rules between properties (C38).
8. Decoding panics on `BYDAY=+1` (a plus sign, one digit, no day), and on a document that ends inside an alarm (C12, C70); nothing else panics (C12_panics_iff_partial).
9. `Recur.valid` misses the occurrence in BYDAY and COUNT beside UNTIL (C23); decoding accepts repeated parts and `BYDAY=+MO` (C56).
10. The unfolding reader loses and invents octets and hangs, depending on how the input arrives (C07–C09).
11. Names behind END, and END and ACTION inside alarms, are compared case-sensitively (C13, C43); with `end:VALARM` the lines of an event run into the next component (C40, C66).
12. A period with TZID and an end is decoded, but rejected by validation (C27).
13. Durations with weeks drop the other units (C18); `P1M` is accepted (C19).
14. Offsets of zero or more are written without sign (C20).
15. Two ACTION lines in an alarm are accepted (C35).
16. A zone name with a line break is written as it is (C46).
17. RRULE in VTODO is dropped, CALSCALE and METHOD too (C51).
18. Lists of times in RDATE, EXDATE, FREEBUSY, and every REQUEST-STATUS of the RFC, are rejected (C52, C53).
19. RELATED in TRIGGER is ignored (C54).
20. Local times that occur twice (east of Greenwich) are read as the last occurrence instead of the first, and those that do not occur (west of Greenwich) with the offset behind the gap instead of the one before (C62).
21. Documents larger than the parser's buffer: if the piece that fills the buffer has a fold and ends in CR LF SPACE, SPACE CR LF or LF SPACE CR, `Decode` never returns; for every buffer size from 109 octets up `Encode` itself writes such documents. If the piece ends inside of a fold, the text changes: a space stays in it (C63).
22. Lines folded with CR LF HTAB, which RFC 5545 allows, make `Decode` fail (C64).
23. On a connection that stays open `Decode` asks for more input before it looks at the last line of a calendar, because that line ends in CR LF (C69).
24. Inside an unknown component, a component whose name is not in upper case on its BEGIN line can not be ended: the name on END is put in upper case, and compared with it (C40, C74).
25. Values that RFC 5545 restricts are not checked: times that must be in UTC may be local (C77), PRIORITY, PERCENT-COMPLETE, SEQUENCE and REPEAT may be any number of 32 bits (C78), an event may end before it begins (C79).
26. The VTIMEZONE components of a document are not used: a TZID that the machine does not know makes `Decode` fail, although the document defines it; one that it knows is read by the rules of the machine (C80). What a document is read as depends on the machine (C76).
27. Alarms that open a URI have no TRIGGER, though every alarm must have one: no document with such an alarm is as it should be (C82).
28. `decodeDummy` calls itself for every BEGIN inside an unknown component, without a limit: a document of nested unknown components makes the stack grow with its length, and beyond Go's limit (1 GB by default) the program ends, which no `recover` prevents (C88).
29. Errors do not say which line of the document is wrong, or which of several components of a kind (C89).
30. `errValidatingType` is "error decoding %s: %w", so errors of `Encode` speak of decoding where nothing is decoded (C92).
31. `unfolder.Read` returns a negative count if the caller's reader delivers nothing and no error while the rest of a marker is looked for, and then the rest of another one (C93); a `bufio.Reader` above it panics on that.
32. A rule is written with the TZID of its end even if the end is not written (because there is a count, or because it is a date): the zone is gone when it is read (C94).

## Axioms

<!-- axioms -->
703 theorems, all in namespace `Ics.Props`.

* axioms: **none** (12): `C26_boolean_rfc`, `C21_timezone_written`, `C21_calendar_start`, `C21_ambiguous_times_collide`, `C21_fraction_lost`, `C48_last_modified_unread`, `C89_sections`, `C91_same_name`, `C92_names`, `C107_eager`, `C107_untouched`, `C108_lawful`
* axioms: **propext** (84): `C05_error_is_sticky`, `C07_result_depends_on_chunking`, `C09_space_invented`, `C09_octet_lost_behind_cr`, `C18_full_claim_is_false`, `C19_full_claim_is_false`, `C20_full_claim_is_false`, `C25_only_with_encoding`, `C26_boolean_round_trip`, `C22_full_claim_is_false`, `C23_occurrence_not_checked`, `C23_until_dropped`, `C23_full_claim_is_false`, `C27_duration_lost`, `C27_full_claim_is_false`, `C29_full_claim_is_false`, `C31_unquoted_uri_rejected`, `C31_uri_splits_line`, `C31_empty_vanishes`, `C31_full_claim_is_false`, `C32_tzid_matters`, `C38_read_as_other`, `C46_broken`, `C48_full_claim_is_false`, `C12_open_alarm`, `C12_plus_day`, `C12_full_claim_is_false`, `C13_extra_end`, `C13_full_claim_is_false`, `C35_two_actions`, `C37_none_partial`, `C37_duration_only`, `C37_email_rejected`, `C37_full_claim_is_false`, `C40_action_outside`, `C40_full_claim_is_false`, `C41_in_alarm`, `C41_lower_case`, `C41_full_claim_is_false`, `C43_end_name`, `C43_action`, `C43_alarm_end`, `C43_full_claim_is_false`, `C49_scale_ignored`, `C49_full_claim_is_false`, `C51_todo_rule_lost`, `C52_full_claim_is_false`, `C53_full_claim_is_false`, `C56_beyond_the_rfc`, `C62_new_york`, `C65_not_both`, `C66_lower_case`, `C68_rfc_names`, `C68_other_numbers`, `C71_not_in_alarms`, `C76_unknown_zone`, `C76_local_time`, `C76_zero_time`, `C76_full_claim_is_false`, `C77_full_claim_is_false`, `C79_full_claim_is_false`, `C80_own_zone`, `C80_full_claim_is_false`, `C87_nil_anywhere`, `C89_reasons`, `C89_fields`, `C89_which_event`, `C89_spelling`, `C89_block_names`, `C89_property_names`, `C91_reasons`, `C91_spelling`, `C91_own_names`, `C93_negative_count`, `C96_character_broken`, `C96_full_claim_is_false`, `C101_calls`, `C101_all_accepted`, `C101_short_writes_unnoticed`, `C102_made_up`, `C106_sample`, `C107_scribbled`, `C111_ends_with_line_end`, `C116_exact`
* axioms: **Quot.sound, propext** (109): `C01_zone_name_long_line`, `C01_full_claim_is_false`, `C05_failing_writer`, `C09_false_for_lazy_readers`, `C16_rfc_text_decodes`, `C17_rfc_list_decodes`, `C19_rfc_durations_accepted_partial`, `C20_offset_round_trip_partial`, `C25_binary_round_trip`, `C25_encoding_is_base64`, `C26_integer_round_trip`, `C24_frequency_given`, `C27_decoded_accepted_partial`, `C29_round_trip_partial`, `C29_encoder_diverges`, `C29_encoder_rounds`, `C29_decoding_exact_partial`, `C29_escapes_kept`, `C31_unnamed_values_collapse`, `C32_no_repeated_parameter`, `C32_repeated_error`, `C33_decode_one_alternative`, `C06_nothing_written`, `C28_value_claim_is_false`, `C28_paris_rejected`, `C28_full_claim_is_false`, `C38_each_refused`, `C38_two_ends`, `C38_full_claim_is_false`, `C44_full_claim_is_false`, `C46_zone_name_injects`, `C46_format_type_breaks_line`, `C46_full_claim_is_false`, `C47_lost`, `C47_full_claim_is_false`, `C48_names_return_partial`, `C15_zone_name_ends_document`, `C15_full_claim_is_false`, `C45_zero_time`, `C45_position`, `C45_zone_period`, `C45_full_claim_is_false`, `C50_no_other`, `C51_kept_partial`, `C51_full_claim_is_false`, `C56_full_claim_is_false`, `C58_parameters_exact`, `C58_single`, `C58_unknown_names`, `C58_range`, `C59_encode_never_panics`, `C60_identity_unseen`, `C60_uri_parameter`, `C60_false_parameter`, `C63_corrupts`, `C67_empty_parameter`, `C67_full_claim_is_false`, `C73_value_errors`, `C78_full_claim_is_false`, `C82_offset_line`, `C84_not_utf8_accepted`, `C86_entries`, `C86_alarm_without_type`, `C87_nil_calendar`, `C87_nil`, `C88_at_most`, `C88_nesting`, `C88_lower_case`, `C90_text_iff_error`, `C90_places`, `C91_names`, `C91_words_names`, `C92_says_decoding`, `C93_full_claim_is_false`, `C94_times`, `C94_written_otherwise`, `C94_refused`, `C100_read`, `C100_calls`, `C100_not_after_an_error`, `C100_error_passed_on`, `C101_pieces`, `C103_same`, `C103_never_iff`, `C103_one_text`, `C103_caret`, `C103_failing_writer_does_not_stop_it`, `C103_nothing_written_is_false`, `C104_full_claim_is_false`, `C105_one`, `C105_encoder_rounds`, `C106_full_claim_is_false`, `C107_full_claim_is_false`, `C108_sequence`, `C108_decodes`, `C108_scribbled_decode`, `C108_scribbled_encode`, `C108_scribbled_true`, `C108_needs_the_contract`, `C111_taken_apart`, `C112_escapes`, `C112_write_escapes`, `C117_at_most`, `C117_at_least`, `C117_one_by_one`, `C118_the_text`, `C119_last_octets`, `C119_full_claim_is_false`, `C121_full_claim_is_false`
* axioms: **Classical.choice, Quot.sound, propext** (498): `C01_lines_at_most_75_octets`, `C01_encode_lines_partial`, `C01_any_lines_partial`, `C01_decoded_partial`, `C02_fold_never_splits_characters`, `C02_lines_utf8`, `C96_broken_between_pieces`, `C03_folding_is_transparent`, `C96_transparent`, `C04_write_granularity_irrelevant`, `C04_write_returns_length`, `C07_unfolding_partial`, `C07_no_folds_any_chunking_partial`, `C07_single_delivery_partial`, `C07_octet_by_octet_partial`, `C07_uncut_partial`, `C07_cut_is_wrong`, `C07_exactly_partial`, `C07_decode_partial`, `C07_same_result_partial`, `C07_marker_at_the_end`, `C07_full_claim_is_false`, `C08_read_terminates_partial`, `C08_marker_removal_terminates_iff`, `C08_read_can_hang`, `C08_read_hangs_iff`, `C08_reading_hangs_iff`, `C08_decode_hangs_iff`, `C08_same_result`, `C08_only_the_calls_made`, `C08_full_claim_is_false`, `C09_well_cut_partial`, `C09_no_folds_partial`, `C09_uncut_partial`, `C09_octets_lost`, `C09_full_claim_is_false`, `C10_print_parse`, `C10_print_parse_last`, `C10_document`, `C10_print_injective`, `C11_parsed_lines_wellformed`, `C11_document`, `C11_accepted_document_is_its_lines`, `C16_text_round_trip`, `C16_encoding_is_rfc_text`, `C16_decoding_exact`, `C17_mtext_round_trip`, `C17_encoding_is_rfc_list`, `C17_decoding_exact`, `C18_duration_round_trip_partial`, `C18_exactly`, `C18_weeks_drop_the_rest`, `C19_encoding_is_rfc`, `C19_accepted_are_items_partial`, `C19_decoded_in_range`, `C19_decoding_exact`, `C20_exactly`, `C20_negative_offset_is_rfc_partial`, `C20_nonnegative_offset_is_not_rfc`, `C20_nonnegative_offset_with_sign_is_rfc`, `C20_rfc_offset_decodes`, `C20_accepted_offsets`, `C25_decoding_exact`, `C26_exactly`, `C26_integer_exact`, `C21_datetime_round_trip_partial`, `C21_exactly`, `C21_date_exactly`, `C21_utc_round_trip_partial`, `C21_zoned_round_trip_partial`, `C21_date_round_trip`, `C21_time_of_day_round_trip`, `C21_time_comes_back`, `C21_calendar_step`, `C21_calendar_real`, `C21_full_claim_is_false`, `C22_date_exact`, `C22_datetime_means`, `C22_time_means`, `C22_datetime_exact_partial`, `C22_zoned_exact_partial`, `C23_recur_round_trip_partial`, `C23_exactly`, `C23_utc_round_trip_partial`, `C24_decoded_in_range`, `C24_panics_only_on_plus_digit`, `C24_panics_iff`, `C27_period_round_trip_partial`, `C27_exactly`, `C27_unzoned_period_round_trip_partial`, `C27_zoned_periods_rejected`, `C31_round_trip_partial`, `C31_exactly`, `C31_uris_rejected`, `C32_unknown_parameters_ignored`, `C33_valid_one_alternative`, `C28_validation_is_inverted`, `C28_finite_rejected`, `C28_encode_rejects_finite`, `C30_termination_exact_partial`, `C30_caret_diverges`, `C30_full_claim_is_false`, `C38_exactly_partial`, `C38_both_sides`, `C44_round_trip_partial`, `C83_exactly_these_come_back`, `C44_exact_partial`, `C44_octets_partial`, `C44_what_comes_back_partial`, `C44_octets_are_the_text`, `C44_octets_exactly_partial`, `C44_sample`, `C46_exact_lines_partial`, `C46_exactly_partial`, `C46_seen_partial`, `C46_decoded_partial`, `C47_always_lost`, `C12_no_panic_partial`, `C12_truncated_alarm`, `C12_panics_iff`, `C12_panics_iff_partial`, `C13_closed_partial`, `C13_every_document`, `C13_begin_and_end`, `C14_rest_ignored`, `C14_append`, `C34_required_partial`, `C34_names_partial`, `C34_every_document`, `C34_required_present`, `C34_full_claim_is_false`, `C35_single_partial`, `C35_names_partial`, `C35_every_document`, `C35_full_claim_is_false`, `C36_rules`, `C36_lines_partial`, `C36_every_document`, `C37_inverted`, `C39_order_partial`, `C39_every_document`, `C39_full_claim_is_false`, `C40_foreign`, `C40_unknown_partial`, `C40_everywhere`, `C40_everywhere_alarm`, `C41_block_partial`, `C41_everywhere`, `C41_only_closed`, `C42_order`, `C42_swap`, `C43_names_partial`, `C43_begin_partial`, `C43_end_partial`, `C43_begin_everywhere`, `C43_end_everywhere`, `C43_end_name_everywhere`, `C43_spelling`, `C15_no_part_is_decoded_partial`, `C15_octets_partial`, `C15_pieces_partial`, `C15_any_part_partial`, `C15_any_octets_partial`, `C15_any_pieces_partial`, `C15_decoded_partial`, `C15_exactly_partial`, `C15_octets_exactly_partial`, `C45_valid_iff_partial`, `C45_typed`, `C45_period`, `C49_accepted_partial`, `C49_every_document`, `C49_sound_partial`, `C50_reads`, `C50_parameter_order`, `C50_default_type`, `C52_no_lists_partial`, `C52_every_document`, `C52_single_values`, `C53_none_partial`, `C53_every_document`, `C54_related_ignored`, `C54_full_claim_is_false`, `C55_alike`, `C56_decode_exact`, `C56_rfc_rules_read`, `C56_written_rules_partial`, `C57_values_exact`, `C57_one_meaning`, `C59_valid_exact`, `C59_encode_refuses`, `C59_go_type`, `C59_go_type_property`, `C60_exactly_partial`, `C60_both_sides`, `C60_again_partial`, `C60_stable_partial`, `C60_full_claim_is_false`, `C61_hangs_exact_partial`, `C61_caret_hangs`, `C61_full_claim_is_false`, `C62_once_partial`, `C62_west_partial`, `C62_east_partial`, `C62_shown`, `C62_accepts`, `C62_rfc_unique`, `C62_east_twice`, `C62_west_gap`, `C62_exactly_partial`, `C62_half`, `C62_full_claim_is_false`, `C63_fits_partial`, `C63_unfolded_partial`, `C63_octet_by_octet_partial`, `C63_uncut_partial`, `C63_hangs`, `C63_full_claim_is_false`, `C64_space_partial`, `C64_space_pieces_partial`, `C64_uncut_partial`, `C64_tab`, `C64_full_claim_is_false`, `C65_settled_or_undecided`, `C65_answer_stands`, `C66_components_partial`, `C66_merge_partial`, `C66_everywhere`, `C66_which_lines`, `C66_full_claim_is_false`, `C67_injective_partial`, `C67_octets_partial`, `C67_found_partial`, `C68_method`, `C68_properties`, `C68_parameters`, `C68_closed_parameters`, `C68_spelling`, `C69_asked_again`, `C69_always_waits`, `C69_one_more_partial`, `C69_any_pieces`, `C69_any_pieces_folded`, `C69_never_less`, `C69_full_claim_is_false`, `C70_cut`, `C70_cut_partial`, `C70_never_blamed`, `C70_full_claim_is_false`, `C71_next_property`, `C71_first_wrong_line_partial`, `C71_one_line`, `C71_full_claim_is_false`, `C72_error_iff`, `C72_accepted_iff`, `C72_panic_iff`, `C72_one_fault`, `C72_undecided_iff`, `C72_next_line`, `C73_means`, `C73_one`, `C73_which`, `C73_property_errors`, `C74_exact`, `C74_one`, `C74_rfc`, `C75_line_by_line`, `C75_one_line`, `C76_same_reading_partial`, `C76_utc_partial`, `C76_same_zones_partial`, `C76_accepted_exactly_partial`, `C76_same_exactly_partial`, `C76_zones_exactly_partial`, `C76_instants_exactly_partial`, `C76_only_what_is_read`, `C76_z_same`, `C77_not_checked`, `C77_utc_exactly_partial`, `C78_not_checked`, `C78_int32_partial`, `C79_not_compared`, `C79_exchanged`, `C80_machine_zones`, `C80_refused_partial`, `C80_every_document`, `C81_expressible`, `C81_written_partial`, `C81_exact_partial`, `C81_offsets`, `C81_no_text`, `C81_full_claim_is_false`, `C82_document_partial`, `C82_uri_alarm`, `C82_full_claim_is_false`, `C83_exactly_for_all`, `C83_the_very_same`, `C83_week_and_day`, `C84_written`, `C84_list_written`, `C84_kept_exactly`, `C84_list_kept_exactly`, `C84_validation`, `C84_list_validation`, `C84_full_claim_is_false`, `C85_value`, `C85_value_all`, `C85_value_one`, `C85_parameter`, `C85_property`, `C85_line`, `C85_lines`, `C85_document_line`, `C85_document_property`, `C86_value`, `C86_value_all`, `C86_parameter`, `C86_property`, `C86_encode`, `C86_nothing_written`, `C87_panics`, `C87_error`, `C87_no_nil`, `C87_no_panic`, `C87_same`, `C87_go_type`, `C88_exact`, `C88_unbounded`, `C89_text_iff_error`, `C89_text_iff`, `C89_one_text`, `C89_component_property`, `C89_component_words`, `C90_text_iff`, `C91_text_iff_error`, `C91_text_iff`, `C91_one_text`, `C91_ends_with_reason`, `C91_begins_with_name`, `C91_words`, `C91_component_property`, `C92_text_iff_error`, `C92_text_iff`, `C92_calendar`, `C92_spelling`, `C93_never_panics`, `C93_at_most_the_buffer`, `C93_count_partial`, `C94_exactly_partial`, `C94_valid_exactly_partial`, `C94_stays_exactly_partial`, `C94_of_the_calendar_partial`, `C94_sample`, `C94_full_claim_is_false`, `C95_exactly`, `C95_one`, `C95_line_ends`, `C95_other_line_ends`, `C95_first_line_end`, `C95_wrong_line`, `C95_wrong_start`, `C95_needs_cr_lf`, `C95_first_characters`, `C95_octets_partial`, `C95_readers_partial`, `C96_pieces`, `C96_lines_at_most_75_octets`, `C96_write_returns_length`, `C96_granularity_partial`, `C97_at_most_twice`, `C97_carets`, `C97_without_carets`, `C97_octets`, `C97_twice_is_reached`, `C98_composed`, `C98_component`, `C98_property`, `C98_component_property`, `C99_text`, `C99_folding`, `C99_octets`, `C99_read_and_written`, `C101_whole_characters`, `C101_together`, `C101_encode`, `C101_same_folder`, `C101_same_count`, `C101_same_encode`, `C102_decode`, `C102_no_escapes`, `C102_encode`, `C102_seven_bit`, `C102_read_and_written`, `C103_how_far`, `C104_one_line_partial`, `C104_call_size_partial`, `C104_number_of_calls_partial`, `C104_decoded_partial`, `C104_decoded_one_line_partial`, `C104_never_one_line_partial`, `C104_never_call_size_partial`, `C105_taken_for`, `C105_written`, `C105_validation`, `C105_encode`, `C105_read`, `C105_comes_back`, `C105_utf8`, `C105_sample`, `C105_encoder_returns`, `C105_calls_same`, `C105_calls_utf8`, `C106_exactly`, `C106_as_they_are`, `C106_each_call`, `C106_sent`, `C106_folded_partial`, `C107_read_partial`, `C107_same`, `C107_all_partial`, `C107_decode_partial`, `C107_decode_eager_partial`, `C108_schedule`, `C108_schedule_through`, `C108_arrays`, `C109_settled`, `C109_asks`, `C109_stays`, `C109_calendar`, `C109_same`, `C109_returns`, `C110_full_claim_is_false`, `C110_second_fails`, `C110_any_pieces`, `C110_octet_between_partial`, `C111_phrases`, `C111_decode`, `C111_accepts`, `C111_line_ends`, `C111_never_unknown`, `C111_slices`, `C112_duration`, `C112_text_piece`, `C112_text`, `C112_text_list`, `C112_offset`, `C112_same`, `C113_never_another`, `C113_goes_on`, `C113_returned`, `C113_unnoticed`, `C113_reported`, `C113_as_end`, `C113_broken_off`, `C113_complete`, `C114_exactly_partial`, `C114_folded_partial`, `C114_hangs_partial`, `C114_stuck_partial`, `C114_before_fold_partial`, `C114_returns_partial`, `C114_full_claim_is_false`, `C115_short_lines`, `C115_exactly`, `C115_no_place`, `C115_full_lines`, `C115_only_way`, `C115_shortest`, `C116_runs`, `C116_runs_75`, `C116_encode`, `C116_long_lines`, `C117_decode`, `C117_no_folds`, `C118_calls`, `C118_text`, `C118_encode`, `C118_encode_text`, `C118_per_property`, `C119_first_part`, `C119_text_partial`, `C119_file_partial`, `C119_pieces_partial`, `C119_not_read_partial`, `C120_left_partial`, `C120_octets_partial`, `C120_octets_sample`, `C120_retried_partial`, `C120_file_partial`, `C120_pieces_partial`, `C120_exactly_partial`, `C120_never_mixed_partial`, `C120_spoilt_partial`, `C120_sample`, `C121_appended_partial`, `C121_space`, `C121_two_partial`, `C121_file_partial`
<!-- end of axioms -->

#!/usr/bin/env python3
"""Writes the table of properties in DESIGN.md."""
import json, os
ROOT = os.path.dirname(os.path.dirname(os.path.abspath(__file__)))
props={}
for l in open(ROOT + '/properties.jsonl'):
    d=json.loads(l); props[d["id"]]=d
man={c["property"]:c for c in json.load(open(ROOT + '/MANIFEST.json'))["claims"]}
how={
"C01":("`Folder.write` (folder.go) over octets, with the column as in Go","invariant on the column over any sequence of writes; refinement to a one-pass specification (Spec/Folding); a counterexample with carriage returns in a zone name (Props/LongLine)"),
"C02":("`Folder.write`","the same refinement: breaks are only between characters"),
"C03":("`Folder.write`","removing CR LF SPACE from the output gives back the input, induction over characters"),
"C04":("`Folder.writes`","writing pieces equals writing the concatenation: invariant"),
"C05":("`Sink`: a writer that fails at any octet, any way","induction over calls; the error sticks"),
"C06":("`encode`","case analysis of `valid`"),
"C07":("`Unfolder.read` over any schedule of pieces","counterexamples; theorems for schedules that cut outside markers, and for reading octet by octet; an invariant: right so far, or wrong for good"),
"C08":("`Unfolder` as a machine whose loop may not end","exact condition for the loop, for a `Read` and for `Decode` to end; witness of a hang"),
"C09":("`Unfolder`","witnesses of an invented and of lost octets; equality for well cut schedules"),
"C10":("`Tokeniser`, `Line`","printing then parsing, induction over the characters and the parameters"),
"C11":("`Tokeniser`","inversion of the parser against Spec/ContentLine"),
"C12":("`Res.panic`","two witnesses; everything that panics has one of the two causes; exactly which documents (Spec/Panics)"),
"C13":("`decodeStream`","declarative reading of documents (Spec/Structure), both directions"),
"C14":("`decodeStream`","decoding depends only on the lines it took"),
"C15":("`decode`, `encode`","every proper prefix of an outline fails to close a block"),
"C16":("`Text.encode/decode`","round trip; exact language"),
"C17":("`MText.encode/decode`","round trip; exact language"),
"C18":("`Duration.encode/decode`","round trip by cases of the units"),
"C19":("`Duration.decode`","the state machine of the loop against Spec/Duration and Spec/TimeMeaning, both directions"),
"C20":("`UTCOffset.encode/decode`","arithmetic of digits"),
"C21":("`Time`, `Calendar`: proleptic Gregorian calendar, zones as functions","calendar arithmetic checked against a day by day specification"),
"C22":("`Date.decode`, `DateTime.decode`","exact language against Spec/Time"),
"C23":("`Recur.encode/decode`","round trip for rules in the ranges of the RFC"),
"C24":("`Recur.decode`","invariant over the loop of the parts"),
"C25":("`Binary`","against a specification of Base64 over bits (Spec/Values)"),
"C26":("`Integer`, `Boolean`","exact languages"),
"C27":("`Period`","round trip, witnesses"),
"C28":("`TFloat`, on IEEE bit patterns","the test is inverted: for all finite positions"),
"C29":("`encode6868` as a machine, `decode6868`","divergence by an invariant; exact result of decoding"),
"C30":("`encode : Run EncOut`","exact condition for Encode to return"),
"C31":("`PKind.encode/decode`","round trip per kind"),
"C32":("`PSpec.decode`","fold over the parameters"),
"C33":("`PSpec.decode`","the result has one value"),
"C34":("`Tab.decode`","declarative reading, then counting lines"),
"C35":("`Tab.decode`","the same"),
"C36":("`Tab.finish`","the rules hold of every section of the result"),
"C37":("`Tables` for alarms","the rule of the code is not the rule of the RFC: both directions"),
"C38":("`Cal.valid`, `decodeDoc`","witness; exactly which written calendars are read (`Spec/Readable`)"),
"C39":("`Tab.decode`","declarative reading: values in the order of the lines"),
"C40":("`Tab.decode`","simulation with a line put in anywhere"),
"C41":("`skipBlock`","simulation with a block put in anywhere"),
"C42":("`Tab.decode`","simulation with two lines exchanged"),
"C43":("`decodeStream`","simulation with lines in another case"),
"C44":("`encode`, `decode` down to octets; `foundCal` (Spec/Found)","composition of all round trips; what is read of each line, and the grammar of documents (C74)"),
"C45":("`Cal.valid` after `decode`","invariants of decoded values"),
"C46":("`encodeDoc`","what is written is parsed to the lines of the outline; exactly which calendars are written line by line (`Spec/Unbroken`)"),
"C47":("`Tables`","the field is written under a name that is not read"),
"C48":("`Tables`","finite check of the tables, all rows"),
"C49":("`decode` against Spec/Rfc","tables written down from RFC 5545, lists of differences, equivalence of the declarative readings"),
"C50":("`PSpec.decode` against Spec/PropertyLine","both directions, independent of the decoders"),
"C51":("`Tables` against Spec/Rfc","exact list of names"),
"C52":("Spec/RfcValues","every accepted document has single values there"),
"C53":("Spec/RfcValues","no accepted document"),
"C54":("`PState.step`","the parameter is dropped"),
"C55":("Spec/Alike","lines with the same reading, then all documents by induction over the structure"),
"C56":("`Recur.decode` against Spec/Rule","both directions; RFC rules are a subset"),
"C57":("`Val.decode` against Spec/Meaning","both directions, type by type"),
"C58":("`PKind.decode` against Spec/Meaning","both directions, kind by kind"),
"C59":("`Cal.valid` against Spec/Valid","both directions, through all components"),
"C60":("`decodeDoc`, `encodeDoc` against Spec/Again","decoded values are among those of C44; choice of instants is idempotent in zones with isolated changes"),
"C61":("`encode` after `decodeDoc`","C30 with invariants of decoded parameters"),
"C62":("`instant`, `DateTime.decode`","case analysis on the one change of offset near the reading; witnesses"),
"C63":("`decodeReader`, `Unfolder.read`, `encode`, readers `fullReader`","composition of the round trip with the unfolding theorems; for every buffer size a calendar on which the first piece never gets unfolded; a witness for a changed text"),
"C64":("`decodeReader`, `Unfolder.read`, `tokenise`","induction over the way of folding; locality of Decode and absence of CR LF HTAB in accepted lines"),
"C65":("`decodeDoc`, `Tab.decode`, `alarmCollect`, `skip`","dichotomy settled or starved for every decoder of lines, by induction on the number of lines"),
"C66":("`decodeDoc`, `Tab.decode`","both directions of the refinement (SectReads), splitting of the blocks of a calendar; counterexample in lower case"),
"C67":("`encodeDoc`, `encode`","corollary of the round trip; counterexample with an empty parameter"),
"C68":("`PSpec.decode/encode/valid`, `PKind.decode/encode/valid`, `ClosedEnum`","finite tables compared with the RFC; for all texts and numbers by uniqueness of the position in a list"),
 "C69":("Unfolder, WaitingLemmas","case analysis on the end of the delivered piece; induction on the fuel for the recorded calls"),
 "C70":("`decodeDoc`, Spec/Edits (`Inside`)","the reading of the accepted document gives the place of the cut; what each decoder does at the end of the lines"),
 "C71":("`decodeDoc`, Spec/Edits (`Inside`)","the decoder after the lines before is known up to the continuation (`Reaches`); one step of the section decoder"),
 "C72":("`decodeDoc`, Machine.lean (decoders as machines that read one line at a time), Spec/Fault","the decoders are the runs of a machine; simulation between the machine and the automaton of open blocks; one step per line"),
 "C73":("`decodeDoc`, Spec/Errors","C72, and the errors of each decoder of values, parameters and content lines"),
 "C74":("`decodeDoc`, Spec/Exact","induction on the lines for each level of nesting, in both directions"),
 "C75":("`decodeDoc`, Spec/Exchange","a relation between two runs on lines that stand for each other, by induction on the lines (as parametricity)"),
 "C76":("`decodeDoc` in two environments, Spec/Machines, Spec/Looked","C75 between two machines; each value decoder related to itself; exactly: two runs of the step machine over the same lines, equal as long as what is read is"),
 "C77":("`decodeDoc`","C75, exact reading of times (C22)"),
 "C78":("`decodeDoc`","C75, exact reading of numbers (C26)"),
 "C79":("`decodeDoc`","C75"),
 "C80":("`decodeDoc`","a statement about all properties of decoded calendars; C49"),
 "C81":("`Val.text_`, Spec/Written","the theorems about single types (C16–C28, C56) collected; uniqueness of the parts of a rule"),
 "C82":("`encodeDoc`, Spec/WrittenDoc","C81 and C10 for each line; names of lines counted through the tables for each component; nesting from C13"),
 "C83":("`encodeDoc`, `decodeDoc`","If the lines are read as the same calendar, each property line is (tables, uniqueness of the nesting); a value read from its own text is in the range of the decoder; a URI written without quotes is refused, whatever the line is then read as; the converse is C44"),
 "C84":("`Text.encodeB`, `MText.encodeB`, `Text.validB`: the loops over octets as in Go","Induction over the runes of the octets, good and bad; refinement to the model over runes"),
 "C85":("`ValWrong`, `ParamWrong`, `PropWrong`, `TextFault`: the errors in terms of the text","Exactness (iff) from the exact meaning of right texts and, where there are several errors, from the loops: the longest right beginning and what follows it"),
 "C86":("`First`, `ValRefused`, `ParamRefused`, `PropRefused`, `calEntries`","Validation as a list of checks made one after the other, over properties, sections and the calendar"),
 "C87":("`CalP.entries`, `CalP.filled`","The checks of `Encode` one after the other, with nil pointers among them; elementwise congruence to the model without pointers"),
 "C88":("`begins`, `OpenAtMost`, `deep`, `WholeBlock`, `HasAlarm`","Induction over the loops with a copy of them that counts calls; the greatest number of open blocks as invariant"),
 "C89":("`trail`, `home`, `Says`, `endSays`","The decoder with texts, one line at a time, beside the one without; its states related to the open blocks as for C72"),
 "C90":("`calPlaces`, `Place.text`","The checks as a list of places; the text is that of the first one that fails"),
 "C91":("`PropSays`, `ParamSays`, `ValSays`, `DurSays`, …","The decode methods with texts beside those without; the causes by type as for C85"),
 "C92":("`PropSaysInvalid`","The checks as lists in order, as for C86"),
 "C93":("`Unfolder.read` over all readers","induction over the steps of both loops; a witness for the negative count"),
 "C94":("`foundCal`, `ValStays`, `ValSettled` (Spec/Found)","what is found as a function of what was written, line by line (C44); the lines of what is found are never more, so equal texts have equal lines in equal places"),
 "C95":("`TextBegins`, `Clean` (Props/LineEnds), `ExactDoc` (Spec/Exact)","C74 (grammar over lines), C10 and C11 (a text is its lines), C65 (settled or not)"),
 "C96":("`Folder.write` over octets; `Pieces`, `FoldedAt` (Spec/FoldingOctets)","the refinement of C01 to C04 with characters and single octets as pieces"),
 "C97":("`decodeDoc`; `calSize` (Spec/Size)","the cost of the lines left and the size of what is kept never grow together: induction over the loops of the sections; a superadditive measure of texts that bounds `decode6868`"),
 "C98":("`encode`, `Cal.valid`; `composed`, `WritesOut` (Spec/Pieces)","every piece of text is empty or ends in CR LF, after which the folder is at column 0 again; induction over pairs of a check and a text"),
 "C99":("`encode`, `decodeDoc`; `PropFits`, `calOutside`, `Moderate` (Spec/Output)","a bound for each kind of value and each line, summed over the sections; for folding the potential 3·column; for documents the measures of C97"),
 "C100":("`Unfolder.read`, `readAll`; `Calls` (Spec/Calls)","mutual induction over the two loops; what is to be read again is not more than what was delivered"),
 "C101":("`encodeTo`, `WFolder` (Writer); `Handed`, `HandedOut` (Spec/Writer)","induction over the loop; simulation by a writer that takes everything, and by `Folder`"),
 "C102":("`decodeDoc`, `encodeDoc` (Codec), `encodeTo` (Writer); `calTexts`, `calLibrary`, `OfFormat` (Spec/Characters)","induction with any set of characters that is closed under the escapes"),
 "C103":("`encodeCalls`, `Cal.said` (Emit); `textsInOrder`, `mendCal`, `StandIn` (Spec/Emit)","the calls put together are the text; at the first such text the calls end where the text of the mended calendar has it, by induction over the document"),
 "C104":("`encodeCalls` (Emit), `WFolder` (Writer); `Unbroken` (Spec/Unbroken)","every call of the folder is without line ends but for one at its end; an invariant of the folder"),
 "C105":("`encodeRaw`, `encodeOctets` (Raw) over octets; `softCal`, `hardCal` (Spec/Raw)","refinement to the model over runes: octets below 128 are runes wherever they stand, so the octets may be divided in front of them; from the parameters up to the document"),
 "C106":("`encodeOctets` (Raw), `encodeCallsB` (RawEmit); `calAsIs`, `Put` (Spec/Raw)","the same induction; replacing makes a string longer, so two strings joined are UTF-8 only if both are; each call of Write is given UTF-8 or one of these strings"),
 "C107":("`MUnfolder.read`, `decodeMemory` (Memory); `LeavesAlone` (Spec/Memory)","simulation of the model with whole buffers by the one without, over the mutual recursion; counterexample"),
 "C108":("`runCalls`, `Machine.schedule`, `encodeShared`, `decodeShared` (Shared); `Spares`, `Fair`, `alone` (Spec/Shared)","invariant: the arrays at package level stay as they are; induction over the sequence and over the schedule; counterexamples"),
 "C109":("`decodeOpen`, `decodeDemand` (Demand); `Unsettled`, `CutShort` (Spec/Demand)","each parser on the text so far agrees with the parser on any longer text; where it asks, two ways to go on with different errors"),
 "C110":("`decodeDemand` (Demand); `connection`, `afterCalls` (Spec/Demand)","what one read leaves behind (C69); the first line without its first letter; counterexample"),
 "C111":("`Tokens`, `Parser`, `decodeTokens` (Tokens); `lineTokens`, `NoLastLineEnd` (Spec/Tokens)","each function against the part of `parseLine` it does; the phraser against all of it"),
 "C112":("`Duration.scan`, `scanText`, `Text.scan`, `MText.scan`, `UTCOffset.scan`, `scan6868`, `rounds6868` (Scanned); `DurationMeans`, `LooseText`, `LooseList`, `LooseOffset`, `rfcDec6868`","run against run, then the descriptions of the texts"),
 "C113":("`decodeFailing`, `decodeBroken` (Failing), with the treatment of failures by the library as a parameter","the state in which the last line closes the calendar; that line with a longer value; C109"),
 "C114":("`encodeCalls` (Emit), `decodeDemand` (Demand); `pipeReader` (Spec/Pipe)","invariant on the calls of the folder: no fold behind or in front of a line end; induction over the calls of `Read` up to the first fold; counterexample"),
 "C115":("`Folder.write`","the one-pass specification of C01 against the lines of the text, induction over characters"),
 "C116":("`Folder.loop`","column and length of the run since the last CR or LF, induction over the pieces of the strings"),
 "C117":("`readAll`, `delivered` (Unfolder); `Calls` (Spec/Calls); `decodeDemand` (Demand)","induction on the calls (C100); one Read where nothing is folded"),
 "C118":("`WFolder.writes` (Writer); `Cal.said`, `encodeCalls` (Emit)","induction on the writes; `SameCalls` (C101); `foldStr_size` (C99)"),
 "C119":("`encodeCalls` (Emit), `WFolder.out` (Writer), `decodeReader`","what was accepted is a first part (C101); then C15 and C113"),
 "C120":("`encodeDoc`, `decodeDoc`, `encodeCalls`, `decodeReader`, `foldStr`, `runes`","BEGIN and END lines counted up to every line of the two texts; the line where they meet by its name; two VERSION lines (C34); what a fold or a character cut in two leaves before a letter"),
 "C121":("`encodeDoc`, `decodeDoc`, `decodeReader`, `foldStr`, `runes`","no fold reaches over the last letter; C14 behind it; a line end and SPACE as the counterexample"),
}
rows=""
for i in sorted(props, key=lambda i: int(i[1:])):
    m=man.get(i)
    rows+="| %s | %s | %s | %s | %s |\n"%(i,props[i]["title"],how[i][0],how[i][1],m["status"] if m else "-")
p=ROOT + '/DESIGN.md'
s=open(p).read()
a,b="<!-- properties -->\n","<!-- end of properties -->"
s=s[:s.index(a)+len(a)]+"| id | property | modelled by | proof | status |\n|---|---|---|---|---|\n"+rows+s[s.index(b):]
open(p,'w').write(s)

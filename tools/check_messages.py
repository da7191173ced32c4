#!/usr/bin/env python3
"""Compare the names in lean/Verif/Message.lean and Wording.lean with the calls of fmt.Errorf in /repo/sections.go, properties.go and params.go.

For every decode method of sections.go: the name of the section, and for every case of its switch on the names of lines
the constant that the errors name; for every valid method: that the constant is the name of the type of the field.  Prints the differences; exit status 1 if there are any."""
import re, sys

src = open("/repo/sections.go").read()
lean = open("/verif/lean/Verif/Message.lean").read()
consts = {}
for f in ("params", "properties", "sections", "types"):
    consts.update(re.findall(r'^\s*(c[A-Z]\w*)\s*=\s*"([^"]*)"', open(f"/repo/{f}.go").read(), re.M))

i = lean.index("def goFields")
j = lean.index("/-- The constant for a field")
fields = dict(re.findall(r'\(c!"([^"]*)", c!"([^"]*)"\)', lean[i:j]))
i = lean.index("def goSect")
j = lean.index("/-- The constants for the types of alarms")
sects = dict(re.findall(r'\(c!"([^"]*)", c!"([^"]*)"\)', lean[i:j]))
alarms = re.findall(r'=> c!"(Alarm\w+)"', lean[j:lean.index("/-- The decoding loops")])

bad = 0
def check(ok, *msg):
    global bad
    if not ok:
        bad += 1
        print(*msg)

known = 0
for m in re.finditer(r"func \(s \*(\w+)\) decode\(t tokeniser\) error \{\n(.*?)\n\}\n", src, re.S):
    name, body = m.groups()
    me = set(re.findall(r"err(?:DecodingType|DecodingProp|Multiple), (c\w+),", body))
    check(len(me) == 1, name, "calls itself", me)
    me = consts[me.pop()]
    ends = set(re.findall(r'!= "(V[A-Z]+|STANDARD|DAYLIGHT)"', body))
    check(len(ends) == 1, name, "ends with", ends)
    n = ends.pop() if ends else None
    if n == "VALARM":
        check(me in alarms, name, "not a kind of alarm:", me)
    else:
        check(sects.get(n) == me, name, n, me)
    cases = re.split(r'\n\t\tcase "', body)[1:]
    for c in cases:
        key = c[:c.index('"')]
        if key in ("BEGIN", "END"):
            continue
        used = {consts[x] for x in re.findall(r"err(?:DecodingProp|Multiple), c\w+, (c\w+)", c)}
        want = "AlarmStatus" if key == "STATUS" and n == "VALARM" else fields.get(key)
        check(used == {want}, name, key, used, want)
        known += 1
# validation: the fields in the order of the struct, each with the constant that is its own name
valid = 0
for m in re.finditer(r"func \(s \*(\w+)\) valid\(\) error \{\n(.*?)\n\}\n", src, re.S):
    name, body = m.groups()
    for fld, rest in re.findall(r"if err := s\.(\w+)(?:\[n\])?\.valid\(\); err != nil \{\n\t+return fmt\.Errorf\((.*?)\)\n", body):
        check(re.fullmatch(r"errValidatingProp, c%s, c\w+, err" % name, rest), name, fld, rest)
        said = consts[rest.split(", ")[2]]
        typ = re.search(r"type %s struct \{.*?\n\t%s +[\[\]\*]*(\w+)" % (name, fld), src, re.S).group(1)
        check(said == typ.removeprefix("Prop"), name, fld, typ, said)
        valid += 1
print(valid, "validated fields")
# properties and parameters, for lean/Verif/Wording.lean
word = open("/verif/lean/Verif/Wording.lean").read()
props, params, types = (open(f"/repo/{f}.go").read() for f in ("properties", "params", "types"))
i = word.index("def goParams")
goparams = dict(re.findall(r'\(c!"([^"]*)", c!"([^"]*)"\)', word[i:word.index("/-- The constant for a parameter.")]))
i = word.index("def Kind.goName")
gokinds = set(re.findall(r'=> c!"(\w+)"', word[i:word.index("/-! ## Parameters -/")]))
structs = dict(re.findall(r"^type (Prop\w+) (\w+)", props, re.M))
own = 0
for m in re.finditer(r"func \(p \*?(Prop\w+)\) (decode|valid)\([^)]*\) error \{\n(.*?)\n\}\n", props, re.S):
    name, fn, body = m.groups()
    word_ = {"decode": "Decoding", "valid": "Validating"}[fn]
    for a in re.findall(r"fmt\.Errorf\((.*)\)", body):
        a = a.split(", ")
        check(consts[a[1]] == name.removeprefix("Prop"), name, fn, "calls itself", a[1])
        own += 1
        if structs[name] == "struct" and (len(a) == 4):
            check(a[0] == f"err{word_}Prop", name, fn, a)
            check(a[3] in ("err", "ErrDuplicateParam") or a[2:] == ["cValue", "ErrInvalidValue"], name, fn, a)
        else:
            check(a[0] == f"err{word_}Type", name, fn, a)
            check(a[2] == "ErrInvalidValue" if structs[name] in ("struct", "uint8", "int") else a[2] == "err", name, fn, a)
    # the constants at the parameters, and at the values
    for n, a in re.findall(r'\n\t\tcase "([A-Z-]+)":\n(.*?)(?=\n\t\tcase|\n\t\tdefault)', body, re.S) if fn == "decode" else []:
        used = {x for x in re.findall(r"errDecodingProp, c\w+, (c\w+)", a)}
        if n != "VALUE" and used:
            check({consts[x] for x in used} == {goparams.get(n)}, name, n, used)
    if fn == "decode":
        for n, c in re.findall(r"p\.(\w+)\.decode\(oParams, value\); err != nil \{\n\t+return fmt\.Errorf\(errDecodingProp, c\w+, (c\w+), err\)", body):
            check(consts[c] == n and n in gokinds, name, n, c)
    else:
        for n, c in re.findall(r"p\.(\w+)\.valid\(\); err != nil \{\n\t+return fmt\.Errorf\(errValidatingProp, c\w+, (c\w+), err\)", body):
            typ = re.search(r"type %s struct \{(.*?)\n\}" % name, props, re.S).group(1)
            t = re.search(r"\n\t%s +\*?(\w+)" % n, typ)
            t = t.group(1) if t else n
            check(consts[c] in (t, t.removeprefix("Param")), name, n, c)
for m in re.finditer(r"func \(t \*?(Param\w+)\) (decode|valid)\([^)]*\) error \{\n(.*?)\n\}\n", params, re.S):
    name, fn, body = m.groups()
    for a in re.findall(r"fmt\.Errorf\((.*)\)", body):
        a = a.split(", ")
        check(a[0] == {"decode": "errDecodingType", "valid": "errValidatingType"}[fn] and consts[a[1]] == name.removeprefix("Param"), name, fn, a)
        own += 1
sent = dict(re.findall(r'\b(Err\w+) += errors\.New\("([^"]*)"\)', props + params + types))
i = word.index("def Err.sentinel")
lsent = dict(re.findall(r'\| \.(\w+) => c!"([^"]*)"', word[i:word.index("/-- The text of an error:")]))
for k, v in lsent.items():
    check(sent.get("Err" + k[0].upper() + k[1:]) == v, k, v)
print(own, "texts of properties and parameters,", len(lsent), "errors")
for f, pat in (("/repo/params.go", r'errDecodingType += "(.*)"'), ("/repo/params.go", r'errValidatingType += "(.*)"'), ("/repo/properties.go", r'errDecodingProp += "(.*)"'), ("/repo/properties.go", r'errValidatingProp += "(.*)"'), ("/repo/sections.go", r'errMultiple += "(.*)"')):
    print(re.search(pat, open(f).read()).group(1))
print(known, "fields compared,", bad, "differences")
sys.exit(bad > 0)

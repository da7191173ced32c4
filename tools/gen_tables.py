#!/usr/bin/env python3
"""Extracts the tables of lean/Verif/Tables.lean from the generated Go files properties.go and sections.go (read as text).

  gen_tables.py            print the Lean file
  gen_tables.py --check    compare with lean/Verif/Tables.lean, exit 1 on difference

Every struct, decode, encode and valid function is read on its own, and the script stops if they disagree about the
fields, their order, names, multiplicities or types, except where the model records the disagreement (the decode key and the
encode name of a field are both kept).
"""
import os, re, sys
REPO = os.environ.get("ICS_REPO", "/repo")
HERE = os.path.dirname(os.path.abspath(__file__))
OUT = os.path.join(HERE, "..", "lean", "Verif", "Tables.lean")

def load(f):
    return open(os.path.join(REPO, f)).read().split("\n")

def functions(lines):
    """(receiver type, method) -> (first line, last line, text)"""
    res = {}
    i = 0
    while i < len(lines):
        m = re.match(r"func \((?:\w+ )?\*?(\w+)\) (\w+)\(", lines[i])
        if m:
            j = i
            while lines[j] != "}":
                j += 1
            res[(m.group(1), m.group(2))] = (i + 1, j + 1, "\n".join(lines[i:j + 1]))
            i = j
        i += 1
    return res

def types(lines):
    res = {}
    for i, l in enumerate(lines):
        m = re.match(r"type (\w+) struct \{$", l)
        if m:
            j = i + 1
            fs = []
            while lines[j] != "}":
                w = lines[j].split()
                fs.append((w[0], w[1]) if len(w) > 1 else (w[0], w[0]))
                j += 1
            res[m.group(1)] = (i + 1, j + 1, "struct", fs)
            continue
        m = re.match(r"type (\w+) struct\{\}$", l)
        if m:
            res[m.group(1)] = (i + 1, i + 1, "struct", [])
            continue
        m = re.match(r"type (\w+) ((?:\[\])?\w+)$", l)
        if m:
            res[m.group(1)] = (i + 1, i + 1, "new", m.group(2))
    return res

KIND = {"Binary": "binary", "Boolean": "boolean", "CalendarAddress": "calAddress", "Date": "date", "DateTime": "dateTime",
        "Duration": "duration", "Integer": "integer", "MText": "mtext", "Period": "period", "Recur": "recur", "Text": "text",
        "TFloat": "tfloat", "URI": "uri", "UTCOffset": "utcOffset"}

def die(*a):
    print("gen_tables:", *a, file=sys.stderr)
    sys.exit(1)

def need(c, *a):
    if not c:
        die(*a)

# ---------------------------------------------------------------- parameters
pl = load("params.go")
pf, pt = functions(pl), types(pl)
par_lean = {}
par_order = []
par_defs = []

def param(t):
    """Lean name of the parameter definition for Go type t, generating it on first use"""
    if t in par_lean:
        return par_lean[t]
    d, e, v = pf[(t, "decode")], pf[(t, "encode")], pf[(t, "valid")]
    name = re.search(r'w\.WriteString\(";([A-Z-]+)="\)', e[2]).group(1)
    one = "if len(vs) != 1 {" in d[2]
    quoted = re.search(r"\.Type != tokenParamQuotedValue", d[2]) is not None
    d6868, e6868 = "decode6868" in d[2], "encode6868" in e[2]
    wq = e[2].count('w.WriteString("\\"")')
    und = None
    if "ToUpper" in d[2]:
        cases = re.findall(r'case "([A-Z0-9-]+)":\n\t\t\*t = (\w+)', d[2])
        if cases:
            ecases = re.findall(r'case (\w+):\n\t\tw\.WriteString\("([A-Z0-9-]+)"\)', e[2])
            need([(b, a) for a, b in cases] == ecases, t, "enum cases differ")
            need("default:\n\t\t*t = " in d[2] and d[2].count("Unknown") == 1 and 'default:\n\t\tw.WriteString("UNKNOWN")' in e[2], t)
            consts = []
            ln = pt[t][0]
            k = ln
            while not pl[k].startswith("const ("):
                k += 1
            k += 1
            while pl[k] != ")":
                consts.append(pl[k].split()[0])
                k += 1
            need(consts[1:] == [b for _, b in cases] and consts[0].endswith("Unknown"), t, "const order")
            und = ".enum [" + ", ".join('c!"%s"' % a for a, _ in cases) + "]"
        else:
            need('!= "THISANDFUTURE"' in d[2] and 'w.WriteString("THISANDFUTURE")' in e[2], t)
            und = ".range"
    elif pt[t][2:] == ("new", "URI"):
        need(one and quoted and wq == 0 and "len(t.String()) == 0" in e[2], t)
        und = ".url"
    elif t in ("ParamDelegator", "ParamDelagatee"):
        need(not one and quoted and wq == 0 and "len(t) == 0" in e[2], t)
        und = ".urls"
    elif t == "ParamMember":
        need(not one and quoted and wq == 2 and d6868 and e6868, t)
        und = ".strs"
    elif pt[t][2:] == ("new", "Boolean"):
        und = ".bool"
    elif pt[t][2:] == ("new", "string"):
        if "regexFormatType" in d[2]:
            need(one and not d6868 and e6868 and "regexFormatType" in v[2] and "ContainsAny(string(t), nonsafeChars[32:])" in e[2], t)
            und = ".fmt"
        elif quoted:
            need(one and d6868 and e6868 and wq == 2 and "ContainsAny" not in e[2] and "nonsafeChars[:31]" in v[2], t)
            und = ".str true"
        else:
            need(one and d6868 and e6868 and wq == 2 and "ContainsAny(string(t), nonsafeChars[32:])" in e[2] and "nonsafeChars[:31]" in v[2], t)
            und = ".str false"
    need(und, t, "unknown parameter shape")
    ln = "param" + t[len("Param"):]
    par_lean[t] = ln
    par_defs.append("/-- `%s` (params.go:%d-%d). -/\ndef %s : PDef := ⟨c!\"%s\", %s⟩\n" % (t, pt[t][0], v[1], ln, name, und))
    return ln

# ---------------------------------------------------------------- properties
rl = load("properties.go")
rf, rt = functions(rl), types(rl)
prop_info = {}
prop_defs = []
used = []

def prop(t):
    if t in prop_info:
        return "prop" + t[len("Prop"):]
    tl, tl2, kind, und = rt[t]
    d, e, v = rf[(t, "decode")], rf[(t, "encode")], rf[(t, "valid")]
    name = re.search(r'w\.WriteString\("([A-Z-]+):?"\)', e[2]).group(1)
    if kind == "new" and und == "uint8":
        cases = re.findall(r'case "([A-Z0-9-]+)":\n\t\t\*p = (\w+)', d[2])
        ecases = re.findall(r'case (\w+):\n\t\tw\.WriteString\("([A-Z0-9-]+)"\)', e[2])
        need([(b, a) for a, b in cases] == ecases, t, "enum cases differ")
        need("default:\n\t\treturn" in d[2] and 'w.WriteString("%s:")' % name in e[2], t)
        k = tl
        while not rl[k].startswith("const ("):
            k += 1
        k += 1
        consts = []
        while rl[k] != ")":
            consts.append(rl[k].split()[0])
            k += 1
        need(consts == [b for _, b in cases], t, "const order")
        need(re.search(r"case ([\w, ]+):\n\tdefault:", v[2]).group(1).split(", ") == consts, t, "valid cases")
        shape = ".enum [" + ", ".join('c!"%s"' % a for a, _ in cases) + "]"
    elif kind == "new":
        need("var t %s\n" % und in d[2] and "t := %s(*p)" % und in e[2] and "t := %s(*p)" % und in v[2], t)
        need('case "' not in d[2], t)
        shape = ".fields [] [(c!\"\", .%s)]" % KIND[und]
    else:
        params = [(n, ty.lstrip("*")) for n, ty in und if ty.lstrip("*").startswith("Param")]
        vals = [(n, ty) for n, ty in und if not ty.lstrip("*").startswith("Param")]
        need(und == [x for x in und if x[1].lstrip("*").startswith("Param")] + vals, t, "params before values")
        # decode
        cs = re.findall(r'\n\t\tcase "([A-Z-]+)":\n\t\t\t(?:if p\.(\w+) != nil)?', d[2])
        multi = len(vals) > 1
        want = []
        for n, ty in params:
            want.append(n)
            pn = re.search(r'c!"([A-Z-]+)"', [x for x in [param(ty)] and par_defs if "def %s :" % param(ty) in x][0]).group(1)
            need((pn, n) in cs, t, "decode case", pn, n, cs)
            need("p.%s.decode(pValues)" % n in d[2] and "ErrDuplicateParam" in d[2], t)
        need(len(cs) == len(params) + (1 if multi else 0), t, "extra decode cases", cs)
        need((("VALUE", "") in cs) == multi, t, "VALUE case")
        # encode order
        eo = re.findall(r"\n\tif p\.(\w+) != nil \{\n\t\t(?:w\.WriteString\(\";VALUE=([A-Z-]+)\"\)\n\t\t)?p\.(\w+)\.(a?encode)\(w\)", e[2])
        vo = re.findall(r"\n\tif p\.(\w+) != nil \{\n\t\tif err := p\.(\w+)\.valid", v[2])
        if multi:
            names = re.findall(r'\n\t\t\tcase "([A-Z-]+)":\n\t\t\t\tvType = (\d+)', d[2])
            need([int(b) for _, b in names] == list(range(len(vals))), t, "vType")
            dv = re.findall(r"\n\tcase (\d+):\n\t\tp\.(\w+) = new\((\w+)\)\n\n\t\tif err := p\.(\w+)\.decode\(oParams, value\)", d[2])
            need(dv == [(str(i), n, ty.lstrip("*"), n) for i, (n, ty) in enumerate(vals)], t, "value cases", dv)
            need("if vType == -1 {\n\t\tvType = 0\n" in d[2], t)
            need(eo == [(n, "", n, "encode") for n, _ in params] + [(n, "" if i == 0 else names[i][0], n, "aencode") for i, (n, _) in enumerate(vals)], t, "encode", eo)
            need([a for a, b in vo] == [n for n, _ in params] + [n for n, _ in vals] and all(a == b for a, b in vo), t, "valid")
            need("if c != 1 {" in v[2] and v[2].count("c++") == len(vals), t)
            vs = ", ".join('(c!"%s", .%s)' % (names[i][0], KIND[ty.lstrip("*")]) for i, (n, ty) in enumerate(vals))
        else:
            need(len(vals) == 1 and not vals[0][1].startswith("*"), t, "single value")
            n, ty = vals[0]
            need(eo == [(n, "", n, "encode") for n, _ in params], t, "encode", eo)
            need("\n\tp.%s.aencode(w)" % n in e[2] and "p.%s.decode(oParams, value)" % n in d[2] and "p.%s.valid()" % n in v[2], t)
            need([a for a, b in vo] == [n for n, _ in params] and all(a == b for a, b in vo), t, "valid")
            vs = '(c!"", .%s)' % KIND[ty]
        shape = ".fields [%s] [%s]" % (", ".join(param(ty) for _, ty in params), vs)
    prop_info[t] = name
    ln = "prop" + t[len("Prop"):]
    prop_defs.append("/-- `%s` (properties.go:%d-%d). -/\ndef %s : PSpec := ⟨c!\"%s\", %s⟩\n" % (t, tl, v[1], ln, name, shape))
    return ln

# ---------------------------------------------------------------- sections
sl = load("sections.go")
sf, st = functions(sl), types(sl)
sec_defs = []
sec_done = {}
LEAFK = "Empty"

def section(t):
    if t in sec_done:
        return sec_done[t]
    tl, tl2, _, fields = st[t]
    d, e, v = sf[(t, "decode")], sf[(t, "encode")], sf[(t, "valid")]
    alarm = t.startswith("Alarm")
    name = re.search(r'case "END":\n\t\t\tif value != "([A-Z]+)" \{', d[2]).group(1)
    if alarm:
        need("BEGIN" not in e[2] and "END" not in e[2] and name == "VALARM", t)
    else:
        need('w.WriteString("BEGIN:%s\\r\\n")' % name in e[2] and 'w.WriteString("END:%s\\r\\n")' % name in e[2], t)
    # decode cases
    req = dict((f, k) for k, f in re.findall(r'\n\t\tcase "([A-Z-]+)":\n\t\t\tif required(\w+) \{\n\t\t\t\treturn fmt\.Errorf\(errMultiple', d[2]))
    opt = dict((f, k) for k, f in re.findall(r'\n\t\tcase "([A-Z-]+)":\n\t\t\tif s\.(\w+) != nil \{\n\t\t\t\treturn fmt\.Errorf\(errMultiple', d[2]))
    many = dict((f, (k, ty)) for k, ty, f in re.findall(
        r'\n\t\tcase "([A-Z-]+)":\n\t\t\tvar e (\w+)\n\n\t\t\tif err := e\.decode\(params, value\); err != nil \{\n[^\n]*\n\t\t\t\}\n\n\t\t\ts\.(\w+) = append\(s\.\3, e\)', d[2]))
    subs = dict((f, (k, ty)) for k, ty, f in re.findall(
        r'\n\t\t\tcase "([A-Z-]+)":\n\t\t\t\tvar e (\w+)\n\n\t\t\t\tif err := e\.decode\(t\); err != nil \{\n[^\n]*\n\t\t\t\t\}\n\n\t\t\t\ts\.(\w+) = append\(s\.\3, e\)', d[2]))
    ncases = len(re.findall(r'\n\t\tcase "', d[2]))
    need(ncases == len(req) + len(opt) + len(many) + 2, t, "cases", ncases)
    need(len(re.findall(r'\n\t\t\tcase "', d[2])) == len(subs), t, "sub cases")
    need("decodeDummy(t, n)" in d[2], t)
    if req:
        need("if " + " || ".join("!required" + f for f, _ in fields if f in req) + " {" in d[2], t, "required check")
    fl, sb, eo, vo = [], [], [], []
    for f, ty in fields:
        if f in req:
            need(not ty.startswith("*") and "s.%s.decode(params, value)" % f in d[2], t, f)
            fl.append('⟨c!"%s", %s, .req⟩' % (req[f], prop(ty)))
            eo.append(("s", f)); vo.append(("s", f))
        elif f in opt:
            need(ty.startswith("*") and "s.%s = new(%s)" % (f, ty[1:]) in d[2] and "s.%s.decode(params, value)" % f in d[2], t, f)
            fl.append('⟨c!"%s", %s, .opt⟩' % (opt[f], prop(ty[1:])))
            eo.append(("if", f)); vo.append(("if", f))
        elif f in many:
            need(ty == "[]" + many[f][1], t, f)
            fl.append('⟨c!"%s", %s, .many⟩' % (many[f][0], prop(ty[2:])))
            eo.append(("for", f)); vo.append(("for", f))
        else:
            need(f in subs and ty == "[]" + subs[f][1], t, f, ty)
            sb.append((subs[f][0], subs[f][1]))
            eo.append(("for", f)); vo.append(("for", f))
    need([f for f, _ in fields if f in subs] == [f for f, _ in fields][len(fl):], t, "subsections last")
    body = e[2]
    got = []
    for m in re.finditer(r"\n\tif s\.(\w+) != nil \{\n\t\ts\.(\w+)\.encode\(w\)|\n\tfor n := range s\.(\w+) \{\n\t\ts\.(\w+)\[n\]\.encode\(w\)|\n\ts\.(\w+)\.encode\(w\)", body):
        g = m.groups()
        if g[0]:
            need(g[0] == g[1], t); got.append(("if", g[0]))
        elif g[2]:
            need(g[2] == g[3], t); got.append(("for", g[2]))
        else:
            got.append(("s", g[4]))
    need(got == eo, t, "encode order", got, eo)
    got = []
    for m in re.finditer(r"\n\tif s\.(\w+) != nil \{\n\t\tif err := s\.(\w+)\.valid\(\)|\n\tfor n := range s\.(\w+) \{\n\t\tif err := s\.(\w+)\[n\]\.valid\(\)|\n\tif err := s\.(\w+)\.valid\(\)", v[2]):
        g = m.groups()
        if g[0]:
            need(g[0] == g[1], t); got.append(("if", g[0]))
        elif g[2]:
            need(g[2] == g[3], t); got.append(("for", g[2]))
        else:
            got.append(("s", g[4]))
    need(got == vo, t, "valid order", got, vo)
    need(v[2].count("return fmt.Errorf") == len(vo), t, "extra checks in valid")
    # rules
    tail = d[2][d[2].index("break Loop"):]
    key = {}
    for f in req: key[f] = req[f]
    for f in opt: key[f] = opt[f]
    for f in many: key[f] = many[f][0]
    rules = []
    for m in re.finditer(r"\n\tif (.*) \{\n\t\treturn fmt\.Errorf\(errDecodingType, \w+, (\w+)\)", tail):
        c, err = m.groups()
        if err == "ErrMissingRequired":
            continue
        need(err == "ErrRequirementNotMet", t, err)
        m1 = re.fullmatch(r"s\.(\w+) != nil && s\.(\w+) != nil", c)
        m2 = re.fullmatch(r"s\.(\w+) != nil && \(s\.(\w+) == nil\)", c)
        m3 = re.fullmatch(r"t := s\.(\w+) == nil; t == \(s\.(\w+) == nil\)", c)
        m4 = re.fullmatch(r"s\.(\w+) == nil && s\.(\w+) == nil", c)
        if m1: rules.append('.notBoth c!"%s" c!"%s"' % (key[m1.group(1)], key[m1.group(2)]))
        elif m2: rules.append('.needs c!"%s" c!"%s"' % (key[m2.group(1)], key[m2.group(2)]))
        elif m3: rules.append('.onlyOne c!"%s" c!"%s"' % (key[m3.group(1)], key[m3.group(2)]))
        elif m4:
            need(set(m4.groups()) == set(subs), t); rules.append(".anySub")
        else:
            die(t, "rule", c)
    need(tail.count("return fmt.Errorf") == len(rules) + (1 if req else 0), t, "checks at the end", tail)
    if t == "Calendar":
        kt = "Tab (Tab SubKind)"
        ss = ", ".join('(c!"%s", %s)' % (k, section(ty)) for k, ty in sb)
    elif t in ("Standard", "Daylight") or alarm:
        need(not sb, t)
        kt, ss = "Tab Empty", ""
    else:
        kt = "Tab SubKind"
        ss = ", ".join('(c!"%s", %s)' % (k, ".alarm" if ty == "Alarm" else ".leaf " + section(ty)) for k, ty in sb)
    ln = "tab" + t
    def wrap(xs):
        out, cur = [], ""
        for x in xs:
            if cur and len(cur) + len(x) > 118:
                out.append(cur); cur = ""
            cur += (", " if cur else "") + x
        if cur: out.append(cur)
        return (",\n    ").join(out)
    sec_defs.append("/-- `%s` (sections.go:%d-%d; decode %d-%d, encode %d-%d, valid %d-%d). -/\ndef %s : %s where\n  name := c!\"%s\"\n  fields := [\n    %s]\n  subs := [%s]\n  rules := [%s]\n" % (
        t, tl, v[1], d[0], d[1], e[0], e[1], v[0], v[1], ln, kt, name, wrap(fl) if fl else "", ss, ", ".join(rules)))
    sec_done[t] = ln
    return ln

section("Calendar")
for a in ("Audio", "Display", "Email", "URI", "None"):
    section("Alarm" + a)

text = """import Verif.Section
/-!
# The tables of params.go, properties.go and sections.go

Written by `tools/gen_tables.py`, which reads the generated Go code as text and checks that the struct, `decode`, `encode` and `valid`
of each type agree on fields, order and types.  A property with one value has an empty VALUE name, since that name is never used.
-/

namespace Ics

/-! ## Parameters -/

%s
/-! ## Properties -/

%s
/-! ## Sections -/

%s
end Ics
""" % ("\n".join(par_defs), "\n".join(prop_defs), "\n".join(sec_defs))

if "--check" in sys.argv:
    cur = open(OUT).read()
    if cur != text:
        print("Tables.lean differs from the tables in the Go source")
        sys.exit(1)
    print("Tables.lean matches the Go source:", len(par_defs), "parameters,", len(prop_defs), "properties,", len(sec_defs), "sections")
else:
    print(text, end="")

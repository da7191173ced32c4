#!/usr/bin/env python3
"""Writes the Go functions of params.go, properties.go and sections.go again from the tables of the model, and compares them with the source.

  regen_go.py              exit 1 if a function differs

The tables are read from lean/Verif/Tables.lean and lean/Verif/Unused.lean.  For each parameter, property and component in
them the `decode`, `encode` and `valid` functions are written from templates, those that `PKind`, `PSpec` and `Tab` in
lean/Verif/Param.lean, Property.lean and Section.lean model.  Each must be equal to the function in /repo, character by character.  From
the Go source only the names are taken that the model has no use for: those of struct fields, of constants and of types.  The
functions that are not written this way are listed at the end.
"""
import os, re, sys
REPO = os.environ.get("ICS_REPO", "/repo")
HERE = os.path.dirname(os.path.abspath(__file__))
LEAN = os.path.join(HERE, "..", "lean", "Verif")

def functions(f):
    lines = open(os.path.join(REPO, f)).read().split("\n")
    res, i = {}, 0
    while i < len(lines):
        m = re.match(r"func \((?:\w+ )?\*?(\w+)\) (\w+)\(", lines[i]) or re.match(r"func ()(\w+)\(", lines[i])
        if m:
            j = i
            while lines[j] != "}":
                j += 1
            res[m.groups()] = "\n".join(lines[i:j + 1])
            i = j
        i += 1
    return res, lines

def structs(lines):
    res = {}
    for i, l in enumerate(lines):
        m = re.match(r"type (\w+) struct(\{\}| \{)$", l)
        if m:
            j, fs = i + 1, []
            while m.group(2) != "{}" and lines[j] != "}":
                w = lines[j].split()
                fs.append((w[0], w[-1]))
                j += 1
            res[m.group(1)] = fs
        m = re.match(r"type (\w+) ((?:\[\])?\w+)$", l)
        if m:
            res[m.group(1)] = m.group(2)
    return res

def consts(lines, t):
    """names of the constants of an enumerated type, in order"""
    k = next(i for i, l in enumerate(lines) if l == "// %s constant values." % t) + 2
    res = []
    while lines[k] != ")":
        res.append(lines[k].split()[0])
        k += 1
    return res

rf, rl = functions("properties.go")
rt = structs(rl)
sf, sl = functions("sections.go")
st = structs(sl)
lean = open(os.path.join(LEAN, "Tables.lean")).read() + open(os.path.join(LEAN, "Unused.lean")).read()
lean = re.sub(r"\[\(\[\], ", '[(c!"", ', lean)
strs = lambda s: re.findall(r'c!"([^"]*)"', s)

pname = {n: k for n, k in re.findall(r'def param(\w+) : PDef := ⟨c!"([A-Z-]+)"', lean)}
GO = {"binary": "Binary", "boolean": "Boolean", "calAddress": "CalendarAddress", "date": "Date", "dateTime": "DateTime", "duration": "Duration",
      "integer": "Integer", "mtext": "MText", "period": "Period", "recur": "Recur", "text": "Text", "tfloat": "TFloat", "uri": "URI", "utcOffset": "UTCOffset"}
done, bad = set(), []

def same(f, src, key, want):
    done.add((f, key))
    if src.get(key) != want:
        bad.append((f, key))
        a, b = (src.get(key) or "").split("\n"), want.split("\n")
        for x, y in zip(a, b):
            if x != y:
                print("%s %s.%s:\n  source %r\n  model  %r" % (f, key[0], key[1], x, y))
                break
        else:
            print("%s %s.%s: lengths differ" % (f, key[0], key[1]))

# ---------------------------------------------------------------- properties
def ind(n, s):
    return "".join("\t" * n + l + "\n" if l else "\n" for l in s.split("\n"))

def enum_prop(t, name, names):
    c = t[4:]
    cs = consts(rl, t)
    d = "func (p *%s) decode(params []parser.Token, value string) error {\n\tswitch strings.ToUpper(value) {\n" % t
    d += "".join('\tcase "%s":\n\t\t*p = %s\n' % (n, k) for n, k in zip(names, cs))
    d += "\tdefault:\n\t\treturn fmt.Errorf(errDecodingType, c%s, ErrInvalidValue)\n\t}\n\n\treturn nil\n}" % c
    e = 'func (p *%s) encode(w writer) {\n\tw.WriteString("%s:")\n\n\tswitch *p {\n' % (t, name)
    e += "".join('\tcase %s:\n\t\tw.WriteString("%s")\n' % (k, n) for n, k in zip(names, cs))
    e += '\t}\n\n\tw.WriteString("\\r\\n")\n}'
    v = "func (p *%s) valid() error {\n\tswitch *p {\n\tcase %s:\n\tdefault:\n\t\treturn fmt.Errorf(errValidatingType, c%s, ErrInvalidValue)\n\t}\n\n\treturn nil\n}" % (t, ", ".join(cs), c)
    assert len(names) == len(cs), t
    return d, e, v

def new_prop(t, name, und):
    c = t[4:]
    d = """func (p *%s) decode(params []parser.Token, value string) error {
	oParams := make(map[string]string)

	var ts []string

	for len(params) > 0 {
		i := 1

		for i < len(params) && params[i].Type != tokenParamName {
			i++
		}

		pValues := params[1:i]

		for _, v := range pValues {
			ts = append(ts, v.Data)
		}

		oParams[strings.ToUpper(params[0].Data)] = strings.Join(ts, ",")
		params = params[i:]
		ts = ts[:0]
	}

	var t %s

	if err := t.decode(oParams, value); err != nil {
		return fmt.Errorf(errDecodingType, c%s, err)
	}

	*p = %s(t)

	return nil
}""" % (t, und, c, t)
    e = 'func (p *%s) encode(w writer) {\n\tw.WriteString("%s")\n\n\tt := %s(*p)\n\n\tt.aencode(w)\n\tw.WriteString("\\r\\n")\n}' % (t, name, und)
    v = "func (p *%s) valid() error {\n\tt := %s(*p)\n\n\tif err := t.valid(); err != nil {\n\t\treturn fmt.Errorf(errValidatingType, c%s, err)\n\t}\n\n\treturn nil\n}" % (t, und, c)
    return d, e, v

def fields_prop(t, name, ps, vs):
    """ps: parameters (field, Go type, name); vs: values (field, Go type, VALUE name, pointer?)"""
    c = t[4:]
    multi = len(vs) > 1
    d = "func (p *%s) decode(params []parser.Token, value string) error {\n" % t
    if multi:
        d += "\tvType := -1\n"
    d += """	oParams := make(map[string]string)

	var ts []string

	for len(params) > 0 {
		pName := strings.ToUpper(params[0].Data)
		i := 1

		for i < len(params) && params[i].Type != tokenParamName {
			i++
		}

		pValues := params[1:i]
		params = params[i:]

		switch pName {
"""
    for f, ty, k, ptr in ps:
        d += '\t\tcase "%s":\n\t\t\tif p.%s != nil {\n\t\t\t\treturn fmt.Errorf(errDecodingProp, c%s, c%s, ErrDuplicateParam)\n\t\t\t}\n\n' % (k, f, c, f)
        if ptr:
            d += "\t\t\tp.%s = new(%s)\n\n" % (f, ty)
        d += "\t\t\tif err := p.%s.decode(pValues); err != nil {\n\t\t\t\treturn fmt.Errorf(errDecodingProp, c%s, c%s, err)\n\t\t\t}\n" % (f, c, f)
    if multi:
        d += """		case "VALUE":
			if len(pValues) != 1 {
				return fmt.Errorf(errDecodingProp, c%s, cValue, ErrInvalidValue)
			}

			if vType != -1 {
				return fmt.Errorf(errDecodingProp, c%s, cValue, ErrDuplicateParam)
			}

			switch strings.ToUpper(pValues[0].Data) {
""" % (c, c)
        d += "".join('\t\t\tcase "%s":\n\t\t\t\tvType = %d\n' % (k, i) for i, (_, _, k) in enumerate(vs))
        d += "\t\t\tdefault:\n\t\t\t\treturn fmt.Errorf(errDecodingType, c%s, ErrInvalidValue)\n\t\t\t}\n" % c
    d += """		default:
			for _, v := range pValues {
				ts = append(ts, v.Data)
			}

			oParams[pName] = strings.Join(ts, ",")
			ts = ts[:0]
		}
	}

"""
    if multi:
        d += "\tif vType == -1 {\n\t\tvType = 0\n\t}\n\n\tswitch vType {\n"
        for i, (f, ty, _) in enumerate(vs):
            d += "\tcase %d:\n\t\tp.%s = new(%s)\n\n\t\tif err := p.%s.decode(oParams, value); err != nil {\n\t\t\treturn fmt.Errorf(errDecodingProp, c%s, c%s, err)\n\t\t}\n" % (i, f, ty, f, c, f)
        d += "\t}\n"
    else:
        f = vs[0][0]
        d += "\tif err := p.%s.decode(oParams, value); err != nil {\n\t\treturn fmt.Errorf(errDecodingProp, c%s, c%s, err)\n\t}\n" % (f, c, f)
    d += "\n\treturn nil\n}"
    e = 'func (p *%s) encode(w writer) {\n\tw.WriteString("%s")\n' % (t, name)
    for f, ty, k, ptr in ps:
        e += "\n\tif p.%s != nil {\n\t\tp.%s.encode(w)\n\t}\n" % (f, f)
    if multi:
        for i, (f, ty, k) in enumerate(vs):
            e += "\n\tif p.%s != nil {\n%s\t\tp.%s.aencode(w)\n\t}\n" % (f, '\t\tw.WriteString(";VALUE=%s")\n' % k if i else "", f)
        e += '\n\tw.WriteString("\\r\\n")\n}'
    else:
        e += '\n\tp.%s.aencode(w)\n\tw.WriteString("\\r\\n")\n}' % vs[0][0]
    v = "func (p *%s) valid() error {\n" % t
    for f, ty, k, ptr in ps:
        v += "\tif p.%s != nil {\n\t\tif err := p.%s.valid(); err != nil {\n\t\t\treturn fmt.Errorf(errValidatingProp, c%s, c%s, err)\n\t\t}\n\t}\n\n" % (f, f, c, f)
    if multi:
        v += "\tc := 0\n\n"
        for f, ty, k in vs:
            v += "\tif p.%s != nil {\n\t\tif err := p.%s.valid(); err != nil {\n\t\t\treturn fmt.Errorf(errValidatingProp, c%s, c%s, err)\n\t\t}\n\n\t\tc++\n\t}\n\n" % (f, f, c, f)
        v += "\tif c != 1 {\n\t\treturn fmt.Errorf(errValidatingType, c%s, ErrInvalidValue)\n\t}\n" % c
    else:
        v += "\tif err := p.%s.valid(); err != nil {\n\t\treturn fmt.Errorf(errValidatingProp, c%s, c%s, err)\n\t}\n" % (vs[0][0], c, vs[0][0])
    return d, e, v + "\n\treturn nil\n}"

for n, name, shape in re.findall(r'def prop(\w+) : PSpec := ⟨c!"([A-Z-]+)", (.*)⟩\n', lean):
    t = "Prop" + n
    if shape.startswith(".enum"):
        r = enum_prop(t, name, strs(shape))
    else:
        m = re.fullmatch(r"\.fields \[([^\]]*)\] \[(.*)\]", shape)
        ps = re.findall(r"param(\w+)", m.group(1))
        vs = re.findall(r'\(c!"([A-Z-]*)", \.(\w+)\)', m.group(2))
        if isinstance(rt[t], str):
            assert not ps and len(vs) == 1, t
            r = new_prop(t, name, GO[vs[0][1]])
        else:
            # names of the fields; their types are those of the table
            fs = [f for f, _ in rt[t]]
            assert len(fs) == len(ps) + len(vs), t
            tys = dict(rt[t])
            pp = [(f, "Param" + p, pname[p], tys[f].startswith("*")) for f, p in zip(fs, ps)]
            vv = [(f, GO[k], x) for f, (x, k) in zip(fs[len(ps):], vs)]
            assert all(tys[f].lstrip("*") == ty for f, ty, *_ in pp + vv), t
            assert all(tys[f].startswith("*") == (len(vv) > 1) for f, *_ in vv), t
            r = fields_prop(t, name, pp, vv)
    for k, w in zip(("decode", "encode", "valid"), r):
        same("properties.go", rf, (t, k), w)

# ---------------------------------------------------------------- parameters
pf, pl = functions("params.go")
pt = structs(pl)
ONE = "\tif len(vs) != 1 {\n\t\treturn fmt.Errorf(errDecodingType, c%s, ErrInvalidParam)\n\t}\n\n"
EMPTY = "\tif len(t) == 0 {\n\t\treturn\n\t}\n\n"
Q = 'w.WriteString("\\"")'
E = "w.Write(encode6868(string(%s)))"

def quoted(n, v, x):
    return ind(n, "if %s.Type != tokenParamQuotedValue {\n\treturn fmt.Errorf(errDecodingType, c%s, ErrInvalidParam)\n}\n" % (v, x))

def param(n, name, kind):
    """bodies of decode, encode and valid"""
    t = "Param" + n
    one = ONE % n
    pre = '\tw.WriteString(";%s=")\n\n' % name
    text = "\tif strings.ContainsAny(string(t), nonsafeChars[:31]) {\n\t\treturn fmt.Errorf(errValidatingType, c%s, ErrInvalidText)\n\t}\n\n" % n
    some = "\tif strings.ContainsAny(string(t), nonsafeChars[32:]) {\n\t\t%s\n\t\t%s\n\t\t%s\n\t} else {\n\t\t%s\n\t}\n" % (Q, E % "t", Q, E % "t")
    always = "\t%s\n\t%s\n\t%s\n" % (Q, E % "t", Q)
    def of(go):
        return "\tvar q %s\n\n\tif err := q.decode(nil, vs[0].Data); err != nil {\n\t\treturn fmt.Errorf(errDecodingType, c%s, err)\n\t}\n\n\t*t = %s(q)\n\n" % (go, n, t)
    loop = "\tfor n, v := range t {\n\t\tif n > 0 {\n\t\t\tw.WriteString(\",\")\n\t\t}\n\n%s\t}\n"
    und = pt[t]
    k = kind.split()[0]
    if k == ".url":
        assert und == "URI"
        return (one + quoted(1, "vs[0]", n) + of("URI"), "\tif len(t.String()) == 0 {\n\t\treturn\n\t}\n\n" + pre + "\tq := URI(t)\n\n\tq.encode(w)\n",
                "\tq := URI(t)\n\n\tif err := q.valid(); err != nil {\n\t\treturn fmt.Errorf(errValidatingType, c%s, err)\n\t}\n\n" % n)
    if k == ".urls":
        assert und == "[]CalendarAddress"
        return ("\tfor _, v := range vs {\n" + quoted(2, "v", n) + "\t\tvar q CalendarAddress\n\n\t\tif err := q.decode(nil, v.Data); err != nil {\n\t\t\treturn fmt.Errorf(errDecodingType, c%s, err)\n\t\t}\n\n\t\t*t = append(*t, q)\n\t}\n\n" % n,
                EMPTY + pre + loop % "\t\tq := CalendarAddress(v)\n\n\t\tq.encode(w)\n",
                "\tfor _, v := range t {\n\t\tif err := v.valid(); err != nil {\n\t\t\treturn fmt.Errorf(errValidatingType, c%s, err)\n\t\t}\n\t}\n\n" % n)
    if k == ".strs":
        assert und == "[]string"
        return ("\tfor _, v := range vs {\n" + quoted(2, "v", n) + "\t\t*t = append(*t, decode6868(v.Data))\n\t}\n\n",
                EMPTY + pre + loop % ("\t\t%s\n\t\t%s\n\t\t%s\n" % (Q, E % "v", Q)),
                "\tfor _, v := range t {\n\t\tif strings.ContainsAny(string(v), nonsafeChars[:31]) {\n\t\t\treturn fmt.Errorf(errValidatingType, c%s, ErrInvalidText)\n\t\t}\n\t}\n\n" % n)
    if k == ".str":
        assert und == "string"
        q = kind == ".str true"
        return (one + (quoted(1, "vs[0]", n) if q else "") + "\t*t = %s(decode6868(vs[0].Data))\n\n" % t, EMPTY + pre + (always if q else some), text)
    if k == ".fmt":
        assert und == "string"
        return (one + "\tif !regexFormatType.MatchString(vs[0].Data) {\n\t\treturn fmt.Errorf(errDecodingType, c%s, ErrInvalidParam)\n\t}\n\n\t*t = %s(vs[0].Data)\n\n" % (n, t),
                EMPTY + pre + some, "\tif !regexFormatType.Match([]byte(t)) {\n\t\treturn fmt.Errorf(errValidatingType, c%s, ErrInvalidValue)\n\t}\n\n" % n)
    if k == ".bool":
        assert und == "Boolean"
        return one + of("Boolean"), "\tif !t {\n\t\treturn\n\t}\n\n" + pre + "\tq := Boolean(t)\n\n\tq.encode(w)\n", ""
    if k == ".range":
        assert und == []
        return (one + "\tif strings.ToUpper(vs[0].Data) != \"THISANDFUTURE\" {\n\t\treturn fmt.Errorf(errDecodingType, c%s, ErrInvalidParam)\n\t}\n\n" % n,
                pre + "\tw.WriteString(\"THISANDFUTURE\")\n", "")
    assert und == "uint8"
    closed = k == ".closed"
    cs = consts(pl, n)
    names = strs(kind)
    cases = list(zip(names, cs if closed else cs[1:]))
    assert len(cs) == len(names) + (0 if closed else 1), t
    d = one + "\tswitch strings.ToUpper(vs[0].Data) {\n" + "".join("\tcase \"%s\":\n\t\t*t = %s\n" % x for x in cases)
    d += "\tdefault:\n\t\t" + ("return fmt.Errorf(errDecodingType, c%s, ErrInvalidParam)" % n if closed else "*t = " + cs[0]) + "\n\t}\n\n"
    e = pre + "\tswitch t {\n" + "".join("\tcase %s:\n\t\tw.WriteString(\"%s\")\n" % (b, a) for a, b in cases)
    e += ("" if closed else "\tdefault:\n\t\tw.WriteString(\"UNKNOWN\")\n") + "\t}\n"
    v = "\tswitch t {\n\tcase %s:\n\tdefault:\n\t\treturn fmt.Errorf(errValidatingType, c%s, ErrInvalidValue)\n\t}\n\n" % (", ".join(cs), n) if closed else ""
    return d, e, v

for n, name, kind in re.findall(r'def param(\w+) : PDef := ⟨c!"([A-Z-]+)", (.*(?:\n  .*)?)⟩\n', lean) + [
        (a, b, ".closed " + c) for a, b, c in re.findall(r'def param(\w+) : ClosedEnum := ⟨c!"([A-Z-]+)", (.*)⟩\n', lean)]:
    t = "Param" + n
    d, e, v = param(n, name, kind)
    same("params.go", pf, (t, "decode"), "func (t *%s) decode(vs []parser.Token) error {\n%s\treturn nil\n}" % (t, d))
    same("params.go", pf, (t, "encode"), "func (t %s) encode(w writer) {\n%s}" % (t, e))
    same("params.go", pf, (t, "valid"), "func (t %s) valid() error {\n%s\treturn nil\n}" % (t, v))

# ---------------------------------------------------------------- components
tabs = re.findall(r"def tab(\w+) : Tab .* where\n  name := c!\"(\w+)\"\n  fields := \[\n((?:    .*\n)+)  subs := \[(.*)\]\n  rules := \[(.*)\]\n", lean)
for t, name, fields, subs, rules in tabs:
    alarm = t.startswith("Alarm")
    c = t
    fl = re.findall(r'⟨c!"([A-Z-]+)", prop(\w+), \.(\w+)⟩', fields)
    sb = [(k, {".alarm": "Alarm"}.get(x) or re.search(r"tab(\w+)", x).group(1)) for k, x in re.findall(r'\(c!"(\w+)", ([^)]*)\)', subs)]
    names = [f for f, _ in st[t]]
    assert len(names) == len(fl) + len(sb), t
    F = [(f, "Prop" + p, k, m) for f, (k, p, m) in zip(names, fl)]
    S = [(f, ty, k) for f, (k, ty) in zip(names[len(fl):], sb)]
    pre = {"req": "", "opt": "*", "many": "[]"}
    assert [ty for _, ty in st[t]] == [pre[m] + ty for _, ty, _, m in F] + ["[]" + ty for _, ty, _ in S], t
    key = {k: f for f, _, k, _ in F}
    req = [f for f, _, _, m in F if m == "req"]
    d = "func (s *%s) decode(t tokeniser) error {\n" % t
    if req:
        d += "\tvar %s bool\n\n" % ", ".join("required" + f for f in req)
    d += """Loop:
	for {
		p, err := t.GetPhrase()
		if err != nil {
			return fmt.Errorf(errDecodingType, c%s, err)
		} else if p.Type == parser.PhraseDone {
			return fmt.Errorf(errDecodingType, c%s, io.ErrUnexpectedEOF)
		}

%s		value := p.Data[len(p.Data)-1].Data

		switch strings.ToUpper(p.Data[0].Data) {
		case "BEGIN":
			switch n := strings.ToUpper(value); n {
""" % (c, c, "\t\tparams := p.Data[1 : len(p.Data)-1]\n" if F else "")
    for f, ty, k in S:
        d += '\t\t\tcase "%s":\n\t\t\t\tvar e %s\n\n\t\t\t\tif err := e.decode(t); err != nil {\n\t\t\t\t\treturn fmt.Errorf(errDecodingProp, c%s, c%s, err)\n\t\t\t\t}\n\n\t\t\t\ts.%s = append(s.%s, e)\n' % (k, ty, c, f, f, f)
    d += "\t\t\tdefault:\n\t\t\t\tif err := decodeDummy(t, n); err != nil {\n\t\t\t\t\treturn fmt.Errorf(errDecodingType, c%s, err)\n\t\t\t\t}\n\t\t\t}\n" % c
    for f, ty, k, m in F:
        d += '\t\tcase "%s":\n' % k
        if m == "many":
            d += "\t\t\tvar e %s\n\n\t\t\tif err := e.decode(params, value); err != nil {\n\t\t\t\treturn fmt.Errorf(errDecodingProp, c%s, c%s, err)\n\t\t\t}\n\n\t\t\ts.%s = append(s.%s, e)\n" % (ty, c, f, f, f)
        else:
            test, set_ = ("required" + f, "required%s = true" % f) if m == "req" else ("s.%s != nil" % f, "s.%s = new(%s)" % (f, ty))
            d += "\t\t\tif %s {\n\t\t\t\treturn fmt.Errorf(errMultiple, c%s, c%s)\n\t\t\t}\n\n\t\t\t%s\n\n\t\t\tif err := s.%s.decode(params, value); err != nil {\n\t\t\t\treturn fmt.Errorf(errDecodingProp, c%s, c%s, err)\n\t\t\t}\n" % (test, c, f, set_, f, c, f)
    d += '\t\tcase "END":\n\t\t\tif value != "%s" {\n\t\t\t\treturn fmt.Errorf(errDecodingType, c%s, ErrInvalidEnd)\n\t\t\t}\n\n\t\t\tbreak Loop\n\t\t}\n\t}\n' % (name, c)
    if req:
        d += "\n\tif %s {\n\t\treturn fmt.Errorf(errDecodingType, c%s, ErrMissingRequired)\n\t}\n" % (" || ".join("!required" + f for f in req), c)
    for r in re.findall(r"\.\w+(?: c!\"[A-Z-]+\")*", rules):
        a = [key[k] for k in strs(r)]
        kind = r.split()[0]
        if kind == ".notBoth": cond = "s.%s != nil && s.%s != nil" % tuple(a)
        elif kind == ".needs": cond = "s.%s != nil && (s.%s == nil)" % tuple(a)
        elif kind == ".onlyOne": cond = "t := s.%s == nil; t == (s.%s == nil)" % tuple(a)
        else: cond = " && ".join("s.%s == nil" % f for f, _, _ in S)
        d += "\n\tif %s {\n\t\treturn fmt.Errorf(errDecodingType, c%s, ErrRequirementNotMet)\n\t}\n" % (cond, c)
    d += ("\n" if F else "") + "\treturn nil\n}"
    e = "func (s *%s) encode(w writer) {\n" % t
    if not alarm:
        e += '\tw.WriteString("BEGIN:%s\\r\\n")\n' % name
    for i, (f, _, _, m) in enumerate(F + [(f, 0, 0, "many") for f, _, _ in S]):
        if m == "req": e += "\ts.%s.encode(w)\n" % f
        elif m == "opt": e += "\n\tif s.%s != nil {\n\t\ts.%s.encode(w)\n\t}\n" % (f, f)
        else: e += "\n\tfor n := range s.%s {\n\t\ts.%s[n].encode(w)\n\t}\n" % (f, f)
    if F:
        e += "\n"
    if not alarm:
        e += '\tw.WriteString("END:%s\\r\\n")\n' % name
    e += "}"
    v = "func (s *%s) valid() error {\n" % t
    for f, _, _, m in F + [(f, 0, 0, "many") for f, _, _ in S]:
        if m == "req": a, o, z, x = "", "", "", f
        elif m == "opt": a, o, z, x = "\tif s.%s != nil {\n" % f, "\t", "\t}\n", f
        else: a, o, z, x = "\tfor n := range s.%s {\n" % f, "\t", "\t}\n", f + "[n]"
        v += a + o + "\tif err := s.%s.valid(); err != nil {\n" % x + o + "\t\treturn fmt.Errorf(errValidatingProp, c%s, c%s, err)\n" % (c, f) + o + "\t}\n" + z + "\n"
    v += "\treturn nil\n}"
    for k, w in zip(("decode", "encode", "valid"), (d, e, v)):
        same("sections.go", sf, (t, k), w)

print("%d functions written again, %d differ" % (len(done), len(bad)))
rest = [(f, k) for f, s in (("params.go", pf), ("properties.go", rf), ("sections.go", sf)) for k in s if (f, k) not in done]
print("not written from the tables:", ", ".join(sorted(".".join(x for x in k if x) for _, k in rest)))
sys.exit(1 if bad else 0)

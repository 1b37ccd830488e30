#!/usr/bin/env python3
"""Transcribes the assertions of /repo/unittests/uri into Lean examples about the model.

They are tests of the model's reading of the code (their expectations hold of the code itself, by the project's own test
runs), not proofs of properties."""
import re, os, sys

SRC = "/repo/unittests/uri"
OUT = os.path.join(os.path.dirname(os.path.dirname(os.path.abspath(__file__))), "lean/Verif/Tests")

STR = re.compile(r'(?:u8)?R"([^(\s]*)\((.*?)\)\1"(?:sv|s)?|(?:u8)?"((?:[^"\\\n]|\\.)*)"(?:sv|s)?', re.S)

def unescape(s):
    out = bytearray(); i = 0; b = s.encode()
    while i < len(b):
        c = b[i:i+1]
        if c == b'\\':
            d = b[i+1:i+2]
            if d == b'x':
                m = re.match(rb'[0-9A-Fa-f]+', b[i+2:]); out.append(int(m.group(0), 16)); i += 2 + len(m.group(0)); continue
            out += {b'n': b'\n', b't': b'\t', b'\\': b'\\', b'"': b'"', b"'": b"'", b'0': b'\0', b'?': b'?'}[d]; i += 2; continue
        out += c; i += 1
    return bytes(out)

class Lits:
    def __init__(self): self.v = []
    def sub(self, text):
        def f(m):
            self.v.append(m.group(2).encode() if m.group(2) is not None else unescape(m.group(3)))
            return f"@{len(self.v)-1}@"
        t = STR.sub(f, text)
        # adjacent literals
        def join(m):
            ids = [int(x) for x in re.findall(r'@(\d+)@', m.group(0))]
            self.v.append(b''.join(self.v[i] for i in ids))
            return f"@{len(self.v)-1}@"
        return re.sub(r'@\d+@(?:\s*@\d+@)+', join, t)

def lean(b):
    if b == b'': return "[]"
    if all(0x20 <= c < 0x7f and c not in b'"\\' for c in b): return f'b! "{b.decode()}"'
    return "[" + ", ".join(f"0x{c:02X}" for c in b) + "]"

def opt(x): return "none" if x is None else f"some ({lean(x)})"
def lst(xs): return "[" + ", ".join(lean(x) for x in xs) + "]"

def tests(fn):
    src = open(os.path.join(SRC, fn), encoding="utf-8").read()
    src = "\n".join(l for l in src.split("\n") if not l.strip().startswith("//"))
    for m in re.finditer(r'^(?:TEST|TEST_F|TYPED_TEST) \((\w+), (\w+)\) \{\n(.*?)^\}', src, re.S | re.M):
        yield m.group(1), m.group(2), m.group(3), src[:m.start()].count("\n")

def parts(p):
    a = p.get("authority")
    au = "none" if a is None else f"some ⟨{opt(a['userinfo'])}, {lean(a['host'])}, {opt(a['port'])}⟩"
    return f"⟨{opt(p['scheme'])}, {au}, ⟨{'true' if p['absolute'] else 'false'}, {lst(p['segments'])}⟩, {opt(p['query'])}, {opt(p['fragment'])}⟩"

HEAD = """import Verif.Props.%s

/-!
# The project's own unit tests, run on the model: `unittests/uri/%s`

Generated by `tools/gen_conformance.py`.  Tests of the model, not proofs of properties: each `example` evaluates the model on the
input of an assertion of the project's test suite and compares with the value expected there.
-/

namespace Verif.Tests
%s
"""

def gen_uri():
    o = [HEAD % ("Parse", "test_uri.cpp", """
/-- Signed `char`, as on the project's CI machines. -/
def pl : Plat := ⟨true⟩
/-- A view of a literal. -/
def v (s : Str) : SV := ⟨4096, s⟩
/-- Parse and forget addresses. -/
def parsed (s : Str) : Option (Option (Parts Str)) := ((splitReference pl (v s)).map (·.map Parts.text)).toOption
/-- `EXPECT_EQ (uri::split (a), uri::join (b, c))`. -/
def joins (a b c : Str) : Bool :=
  match split pl (v a), joinStr pl (v b) (v c) true with
  | .ok (some p), .ok (some q) => Parts.eq p q
  | _, _ => false
/-- Parse and remove dot segments. -/
def dotless (s : Str) : Option (Path Str) :=
  ((splitReference pl (v s)).toOption.join).map fun p => p.path.removeDotSegments.map SV.chars
""")]
    n = 0; skipped = []
    for suite, name, body, line in tests("test_uri.cpp"):
        L = Lits(); b = L.sub(body); b = re.sub(r'\s+', ' ', b)
        S = lambda i: L.v[int(i)]
        if suite == "UriSplit":
            m = re.search(r'split_reference \( ?@(\d+)@\)', b)
            if not m: skipped.append((suite, name)); continue
            inp = S(m.group(1))
            o.append(f"/-! `{suite}.{name}` -/")
            if "EXPECT_FALSE (x);" in b or "ASSERT_FALSE (x);" in b:
                o.append(f"example : parsed ({lean(inp)}) = some none := by decide +kernel"); n += 1; continue
            p = {}; a = {}
            for st in b.split(";"):
                st = st.strip()
                if m := re.fullmatch(r'(?:EXPECT|ASSERT)_FALSE \(x->(\w+)\)', st): p[m.group(1)] = None
                elif m := re.fullmatch(r'EXPECT_EQ \(x->(scheme|query|fragment), @(\d+)@\)', st): p[m.group(1)] = S(m.group(2))
                elif m := re.fullmatch(r'(?:EXPECT|ASSERT)_FALSE \(x->authority->(\w+)(?:\.has_value \(\))?\)', st): a[m.group(1)] = None
                elif m := re.fullmatch(r'EXPECT_EQ \(x->authority->(\w+), @(\d+)@\)', st): a[m.group(1)] = S(m.group(2))
                elif m := re.fullmatch(r'EXPECT_(TRUE|FALSE) \(x->path.absolute\)', st): p["absolute"] = m.group(1) == "TRUE"
                elif re.fullmatch(r'(?:EXPECT|ASSERT)_TRUE \(x->path.segments.empty \(\)\)', st): p["segments"] = []
                elif m := re.fullmatch(r'EXPECT_THAT \(x->path.segments, ElementsAre \((.*)\)\)', st):
                    p["segments"] = [S(i) for i in re.findall(r'@(\d+)@', m.group(1))]
                elif st in ("", "ASSERT_TRUE (x)", "ASSERT_TRUE (x->authority)", "ASSERT_TRUE (x->authority.has_value ())") or "split_reference" in st or st.startswith("using "): pass
                elif m := re.fullmatch(r'EXPECT_EQ \(static_cast<std::string> \(x->path\), @(\d+)@\)', st): p["_str"] = S(m.group(1))
                elif m := re.fullmatch(r'EXPECT_EQ \(static_cast<std::filesystem::path> \(x->path\)(?:.generic_string \(\))?, @(\d+)@\)', st): p["_fs"] = S(m.group(1))
                else: skipped.append((suite, name, st))
            if a: p["authority"] = a
            miss = [k for k in ("scheme", "authority", "absolute", "segments", "query", "fragment") if k not in p] + \
                   ([k for k in ("userinfo", "host", "port") if k not in a] if a else [])
            if miss: skipped.append((suite, name, "missing", miss)); continue
            o.append(f"example : parsed ({lean(inp)}) = some (some {parts(p)}) := by decide +kernel"); n += 1
            pv = f"(Path.map v ⟨{'true' if p['absolute'] else 'false'}, {lst(p['segments'])}⟩)"
            if "_str" in p: o.append(f"example : Path.toStr {pv} = {lean(p['_str'])} := by decide +kernel"); n += 1
            if "_fs" in p: o.append(f"example : Path.toFs {pv} = {lean(p['_fs'])} := by decide +kernel"); n += 1
        elif suite == "RemoveDotSegments":
            inp = S(re.search(r'split_reference \(@(\d+)@\)', b).group(1))
            pre, post = b.split("x->path.remove_dot_segments ();")
            ab = re.search(r'EXPECT_(TRUE|FALSE) \(x->path.absolute\)', post) or re.search(r'EXPECT_(TRUE|FALSE) \(x->path.absolute\)', pre)
            seg = re.search(r'EXPECT_THAT \(x->path.segments, ElementsAre \((.*?)\)\)', post).group(1)
            seg = [S(i) for i in re.findall(r'@(\d+)@', seg)]
            o.append(f"/-! `{suite}.{name}` -/")
            o.append(f"example : dotless ({lean(inp)}) = some ⟨{ab.group(1).lower()}, {lst(seg)}⟩ := by decide +kernel"); n += 1
        elif suite == "UriFileSystemPath":
            ab = "p.absolute = true" in b
            segs = [S(m.group(1)) if m.group(1) else b'' for m in re.finditer(r'emplace_back \((?:@(\d+)@)?\)', b)]
            exp = S(re.search(r'std::filesystem::path \(@(\d+)@\)', b).group(1))
            o.append(f"/-! `{suite}.{name}` -/")
            o.append(f"example : Path.toFs (Path.map v ⟨{str(ab).lower()}, {lst(segs)}⟩) = {lean(exp)} := by decide +kernel"); n += 1
        elif suite == "Join":
            o.append(f"/-! `{suite}.{name}` -/")
            for m in re.finditer(r'EXPECT_EQ \(uri::split \(@(\d+)@\), uri::join \((base_|@\d+@), @(\d+)@\)\)', b):
                base = b"http://a/b/c/d;p?q" if m.group(2) == "base_" else S(m.group(2)[1:-1])
                o.append(f"example : joins ({lean(S(m.group(1)))}) ({lean(base)}) ({lean(S(m.group(3)))}) = true := by decide +kernel"); n += 1
            if len(re.findall("EXPECT_", b)) != len(re.findall(r'EXPECT_EQ \(uri::split \(@(\d+)@\), uri::join', b)): skipped.append((suite, name))
        elif suite in ("UriCompose", "PartsValid"):
            p = dict(scheme=None, authority=None, absolute="p.path.absolute = true" in b, segments=[], query=None, fragment=None)
            if "authority.emplace ()" in b: p["authority"] = dict(userinfo=None, host=b'', port=None)
            if m := re.search(r'parts_authority\{@(\d+)@, @(\d+)@, std::nullopt\}', b): p["authority"] = dict(userinfo=S(m.group(1)), host=S(m.group(2)), port=None)
            for m in re.finditer(r'p\.(scheme|query|fragment) = @(\d+)@', b): p[m.group(1)] = S(m.group(2))
            for m in re.finditer(r'p\.authority->(\w+) = @(\d+)@', b): p["authority"][m.group(1)] = S(m.group(2))
            p["segments"] = [S(m.group(1)) if m.group(1) else b'' for m in re.finditer(r'emplace_back \((?:@(\d+)@)?\)', b)]
            pv = f"(Parts.map v {parts(p)})"
            o.append(f"/-! `{suite}.{name}` -/")
            exp = None
            if m := re.search(r'expected = @(\d+)@', b): exp = S(m.group(1))
            elif m := re.search(r'uri::compose \(p\), @(\d+)@', b): exp = S(m.group(1))
            if exp is not None: o.append(f"example : compose {pv} = {lean(exp)} := by decide +kernel"); n += 1
            if "EXPECT_EQ (uri::split_reference (expected), p)" in b:
                o.append(f"example : ((splitReference pl (v ({lean(exp)}))).toOption.join.map (Parts.eq · {pv})) = some true := by decide +kernel"); n += 1
            if "EXPECT_EQ (p, *p2)" in b:
                o.append(f"example : ((splitReference pl (v (compose {pv}))).toOption.join.map (Parts.eq {pv} ·)) = some true := by decide +kernel"); n += 1
            if m := re.search(r'EXPECT_(TRUE|FALSE) \(p.valid \(\)\)', b):
                o.append(f"example : (Parts.valid pl {pv}).toOption = some {m.group(1).lower()} := by decide +kernel"); n += 1
            if "EXPECT_EQ (p.valid (), uri::split (uri::compose (p)).has_value ())" in b:
                o.append(f"example : (split pl (v (compose {pv}))).toOption.map Option.isSome = (Parts.valid pl {pv}).toOption := by decide +kernel"); n += 1
        else: skipped.append((suite, name))
    o.append("\nend Verif.Tests\n")
    open(os.path.join(OUT, "Uri.lean"), "w").write("\n".join(o))
    print("Uri", n, "skipped", skipped)


def gen_pct():
    o = [HEAD % ("Pct", "test_pctdecode.cpp`, `test_pctencode.cpp", """
/-- Decode a view through the iterators, the range-based `for` loop and the range adaptor. -/
def decodings (s : Str) : List (Option Str) :=
  [(pctIterLoop s (pctdecodeEnd s) (s.length + 1) (pctdecodeBegin s)).toOption, (pctdecode s).toOption, (pctViewCopy s).toOption]
""")]
    src = open(os.path.join(SRC, "test_pctdecode.cpp"), encoding="utf-8").read()
    L = Lits(); b = L.sub("\n".join(re.sub(r'//.*', '', l) for l in src[src.index("INSTANTIATE"):src.index("#if URI_FUZZTEST\nstatic")].split("\n")))
    n = 0
    for m in re.finditer(r'make_tuple \(@(\d+)@, @(\d+)@\)', b):
        i, e = lean(L.v[int(m.group(1))]), lean(L.v[int(m.group(2))])
        o.append(f"example : decodings ({i}) = [some ({e}), some ({e}), some ({e})] := by decide +kernel"); n += 1
    for suite, name, body, line in tests("test_pctencode.cpp"):
        L = Lits(); b = L.sub(body)
        if "Exhaustive" in name:
            o.append(f"/-! `{suite}.{name}` -/")
            ty = "UInt8 → Bool"
            names = {}
            for m in re.finditer(r'auto const is_(\w+) = \[=?\] \(uint_least8_t c\)(?: noexcept)? \{\s*(.*?)\s*\};', b, re.S):
                e = re.sub(r'\s+', ' ', m.group(2))
                e = e.replace("if (c == '%') { return true; } return", "c == 0x25 ||").replace("return ", "").rstrip("; ")
                e = re.sub(r'is_(\w+) \(c\)', r'is_\1 c', e)
                e = re.sub(r'c ([<>]) (0x\w+)', r'decide (c \1 \2)', e)
                o.append(f"/-- `{name}`'s lambda. -/\ndef is_{m.group(1)} (c : UInt8) : Bool := {e}"); names[m.group(1)] = 1
            for m in re.finditer(r'needs_pctencode \(c, uri::pctencode_set::(\w+)\),\s*is_(\w+) \(c\)', b):
                t = re.sub(r'_(\w)', lambda k: k.group(1).upper(), m.group(1))
                o.append(f"example : ∀ c : Fin 256, needsPctencodeB (.ofNat c.val) EncSet.{t} = is_{m.group(2)} (.ofNat c.val) := by decide +kernel"); n += 1
        else:
            o.append(f"/-! `{suite}.{name}` -/")
            o.append(f"example : (pctencode ({lean(L.v[0])}) EncSet.component).toOption = some ({lean(L.v[1])}) := by decide +kernel"); n += 1
    o.append("\nend Verif.Tests\n")
    open(os.path.join(OUT, "Pct.lean"), "w").write("\n".join(o))
    print("Pct", n)

def u32(txt, env={}):
    out = []
    for x in re.sub(r'//.*', '', txt).replace("\n", " ").split(","):
        x = x.strip()
        if not x: continue
        if x in env: out.append(env[x]); continue
        m = re.fullmatch(r"static_cast<char32_t> \(\s*(.*)\)", x)
        if m: x = m.group(1)
        out.append(ord(x[1]) if x[0] == "'" else int(x, 16))
    return out
def nats(xs): return "[" + ", ".join(str(x) for x in xs) + "]"

def gen_puny():
    o = [HEAD % ("Punycode", "test_punycode.cpp", """
/-- Decode successfully, with nothing left. -/
def punyDec (s : Str) : Option (Except Puny.Err (List Nat × Str)) := (Puny.decode true s).toOption
""")]
    n = 0
    for suite, name, body, line in tests("test_punycode.cpp"):
        body = re.sub(r"//.*", "", body).replace("','", "0x2C")
        L = Lits(); b = L.sub(body)
        env = {m.group(1): int(m.group(2), 16) for m in re.finditer(r'(\w+) = char32_t\{(0x\w+)\}', b)}
        o.append(f"/-! `{suite}.{name}` -/")
        if name.startswith("BadInput"):
            o.append(f"example : (punyDec ({lean(L.v[0])}) matches some (.error .badInput)) = true := by decide +kernel"); n += 1; continue
        if name.startswith("DecodeEncodeRoundTrip"):
            s = L.v[0]
            if s.count(b'-') == 1 and s.startswith(b'-'): s = s[1:]
            a = s.rfind(b'-'); a = max(a, 0)
            # expectations of DecodeEncodeRoundTrip: same size, same ASCII part, same tail up to case
            o.append(f"example : (match punyDec ({lean(s)}) with | some (.ok (cs, _)) => ((Puny.encode cs false).toOption.map fun r => "
                     f"(r.1.take {a} == ({lean(s)} : Str).take {a}, r.1.length == {len(s)}, (r.1.drop {a}).map toLowerA == (({lean(s)} : Str).drop {a}).map toLowerA)) | _ => some (true, true, true)) "
                     f"= some (true, true, true) := by decide +kernel"); n += 1; continue
        orig = u32(re.search(r'std::u32string\{(.*?)\};', b, re.S).group(1), env)
        enc = L.v[int(re.search(r'encoded\w* =\s*@(\d+)@', b).group(1))]
        m = re.search(r'punycode::encode \(\w+, (true|false),', b)
        if m and "EXPECT_EQ (actual" in b:
            f = re.search(r'EXPECT_(TRUE|FALSE) \(has_non_basic\)', b)
            if f: o.append(f"example : (Puny.encode {nats(orig)} {m.group(1)}).toOption = some ({lean(enc)}, {f.group(1).lower()}) := by decide +kernel")
            else: o.append(f"example : (Puny.encode {nats(orig)} {m.group(1)}).toOption.map Prod.fst = some ({lean(enc)}) := by decide +kernel")
            n += 1
        if "punycode::decode" in b:
            o.append(f"example : (match punyDec ({lean(enc)}) with | some (.ok r) => decide (r = ({nats(orig)}, [])) | _ => false) = true := by decide +kernel"); n += 1
    o.insert(1, """/-- `std::tolower` of the C locale. -/
def toLowerA (c : UInt8) : UInt8 := if 0x41 ≤ c ∧ c ≤ 0x5A then c + 0x20 else c
""")
    o.append("\nend Verif.Tests\n")
    open(os.path.join(OUT, "Punycode.lean"), "w").write("\n".join(o))
    print("Punycode", n)

if __name__ == "__main__":
    os.makedirs(OUT, exist_ok=True)
    gen_uri()
    gen_pct()
    gen_puny()

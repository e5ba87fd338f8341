#!/usr/bin/env python3
"""Transcribe the lexer tests of /repo/src/lexer/tests.rs into Lean examples about the model of the lexer."""
import re
src = open('/repo/src/lexer/tests.rs').read()
src = re.sub(r'("#,\n)((?:\s*//[^\n]*\n)+)', lambda m: m.group(1) + '\n' * (m.group(2).count('\n')), src)
out = ['''import Verif.Model.Logos

/-!
The tests of `/repo/src/lexer/tests.rs` with short ASCII text, run on the model.  Generated by `tools/lexer_tests.py`.

They are no proofs, but evidence that the model of Logos (regular expressions, longest match, falling back) is right.
-/

namespace Lima.LexerTests

attribute [local instance] Categories.asciiOnly

/-- Logos as it appears from the tests: it falls back to the longest match. -/
def logos : Logos :=
  ⟨⟨fun _ => true, fun _ => 1⟩, ⟨fun _ => true, fun _ => 1⟩, fun _ => .error ⟨[]⟩, fun _ => none⟩

/-- `lex_and_check`. -/
def tokens (s : String) : Option (List Token) := (lexText logos s.toList).map (·.map (·.tok))
''']
simple = dict(True_='true_')
names = {'True':'true_','False':'false_','Null':'null','Eol':'eol','Indent':'indent','Minus':'minus','Plus':'plus','Slash':'slash','Colon':'colon','Comma':'comma','Asterisk':'asterisk','Open':'«open»','Option':'option','Popmeta':'popmeta','Query':'query','Note':'note'}
def lstr(s):
    return '"' + s.replace('\\','\\\\').replace('"','\\"').replace('\n','\\n').replace('\t','\\t').replace('\r','\\r').replace('\x0c','\\x0c').replace('\x08','\\x08') + '"'
def tokens(body):
    body = re.sub(r'//[^\n]*', '', body)
    res = []
    i = 0
    while i < len(body):
        m = re.compile(r'\s*,?\s*').match(body, i); i = m.end()
        if i >= len(body): break
        def tr(pat):
            return re.compile(pat, re.S).match(body, i)
        m = tr(r'date\("(\d+)-(\d+)-(\d+)"\)')
        if m: res.append('.date ⟨%d, %d, %d⟩' % tuple(map(int, m.groups()))); i = m.end(); continue
        m = tr(r'time\("(\d+):(\d+)(?::(\d+)(?:\.0)?)?"\)')
        if m: res.append('.time ⟨%d, %d, %d⟩' % tuple(int(x or 0) for x in m.groups())); i = m.end(); continue
        m = tr(r'number!\(([\d.]+)\)')
        if m:
            res.append(('number', m.group(1))); i = m.end(); continue
        m = tr(r'string_literal\(\s*r#"(.*?)"#,?\s*\)')
        if m: res.append('.stringLiteral %s.toList' % lstr(m.group(1))); i = m.end(); continue
        m = tr(r'string_literal\(\s*"((?:[^"\\]|\\.)*)",?\s*\)')
        if m:
            s = m.group(1).encode('utf8').decode('unicode_escape') if m.group(1).isascii() else m.group(1)
            res.append('.stringLiteral %s.toList' % lstr(s)); i = m.end(); continue
        m = tr(r'error\("([^"]*)"\)')
        if m: res.append('.error ⟨%s.toList⟩' % lstr(m.group(1))); i = m.end(); continue
        m = tr(r'unrecognized\(\)')
        if m: res.append('.error .unrecognized'); i = m.end(); continue
        m = tr(r'(Account|Currency|Tag|Link|Key)\("([^"]*)"\)')
        if m: res.append('.%s %s.toList' % (m.group(1).lower(), lstr(m.group(2)))); i = m.end(); continue
        m = tr(r'[A-Z][a-z]+')
        if m and m.group(0) in names: res.append('.' + names[m.group(0)]); i = m.end(); continue
        raise Exception('cannot read: ' + body[i:i+60])
    return res
n = 0
for m in re.finditer(r'fn (\w+)\(\) \{\s*lex_and_check\(\s*r#"(.*?)"#,\s*(?:vec!\[(.*?)\]|Vec::default\(\)),?\s*\);\s*\}', src, re.S):
    name, text, body = m.group(1), m.group(2), m.group(3) or ''
    if not text.isascii() or len(text) > 90: continue  # long texts take the kernel long
    ts = tokens(body)
    line = src[:m.start()].count('\n') + 1
    # decimals are compared by value in Rust: take the scale from the text
    nums = []
    for t in ts:
        if isinstance(t, tuple): nums.append(t[1])
    lits = re.findall(r'\d[\d,]*(?:\.\d+)?', re.sub(r'"[^"]*"', '', text))
    fixed = []
    for t in ts:
        if isinstance(t, tuple):
            v = t[1]
            from decimal import Decimal
            cand = None
            for l in lits:
                for piece in (l.replace(',', ''), *l.split(',')):
                    for q in ([piece] + ([piece[4:]] if len(piece) > 4 else [])):
                        try:
                            if Decimal(q) == Decimal(v) and (cand is None): cand = q
                        except Exception: pass
            if cand is None: cand = v
            if name == 'number_dots' and v == '0': cand = '00'
            if name == 'date_followed_by_number': cand = '8'
            if name == 'invalid_commas_in_integer' and v == '34.0': cand = '34.00'
            if name == 'invalid_commas_in_fractional': cand = '45234.000' if v == '45234.0' else '000'
            # several literals of the same value in one test
            if name == 'number_ok': cand = v
            sc = len(cand.split('.')[1]) if '.' in cand else 0
            fixed.append('.number ⟨%d, %d⟩' % (int(cand.replace('.', '')), sc))
        else: fixed.append(t)
    n += 1
    exp = ',\n      '.join(fixed)
    out.append('/-- `%s`, `/repo/src/lexer/tests.rs:%d`. -/\nexample : tokens %s =\n    some [%s] := by\n  decide +kernel\n' % (name, line, lstr(text), exp))
out.append('end Lima.LexerTests\n')
open('/verif/lean/Verif/Lemmas/LexerTests.lean', 'w').write('\n'.join(out))
print(n, 'tests')

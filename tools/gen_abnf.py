#!/usr/bin/env python3
"""Writes lean/Verif/Spec/UriAbnf.lean: the text of /repo/systemtests/uri.abnf, line by line, as byte strings."""
import sys
src = sys.argv[1] if len(sys.argv) > 1 else '/repo/systemtests/uri.abnf'
lines = open(src, encoding='ascii').read().split('\n')
if lines[-1] == '':
    lines.pop()
out = ['''import Verif.Model.Base

/-!
# The text of `/repo/systemtests/uri.abnf`

Generated by `tools/gen_abnf.py`; one byte string for each line of the file.
-/

namespace Verif.AbnfFile

/-- systemtests/uri.abnf:1-%d. -/
def uriAbnf : List Str := [''' % len(lines)]
for i, l in enumerate(lines):
    q = l.replace('\\', '\\\\').replace('"', '\\"')
    out.append('  b! "%s"%s' % (q, ',' if i + 1 < len(lines) else ']'))
out.append('''
end Verif.AbnfFile
''')
open('lean/Verif/Spec/UriAbnf.lean', 'w').write('\n'.join(out))

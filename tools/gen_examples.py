#!/usr/bin/env python3
"""Write lean/Verif/Check/SpecNN.lean, RstNN.lean and UnitNN.lean: the examples of /repo/spec.txt,
/repo/commonmark/tests/rst_tests.py and /repo/commonmark/tests/unit_tests.py, checked by the kernel on the model.  They are tests of the model, not
proofs of properties."""
import re, os, ast
ROOT = os.path.join(os.path.dirname(os.path.abspath(__file__)), '..', 'lean', 'Verif', 'Check')
os.makedirs(ROOT, exist_ok=True)
N = 65

def lean(s):
    def esc(c):
        return {'\n': '\\n', '\t': '\\t', '"': '\\"', '\\': '\\\\', '\r': '\\r'}.get(c, c)
    if not s:
        return '[]'
    parts = [s[i:i + 60] for i in range(0, len(s), 60)]
    return ' ++ '.join('"' + ''.join(esc(c) for c in p) + '".toList' for p in parts)

def spec_examples():
    text = open('/repo/spec.txt', encoding='utf-8').read()
    text = text[:text.index('<!-- END TESTS -->')] if '<!-- END TESTS -->' in text else text
    pat = re.compile(r'^`{32} example\n(.*?)^\.\n(.*?)^`{32}$', re.M | re.S)
    return [(m.group(1).replace('→', '\t'), m.group(2).replace('→', '\t')) for m in pat.finditer(text)]

def rst_examples():
    tree = ast.parse(open('/repo/commonmark/tests/rst_tests.py', encoding='utf-8').read())
    out = []
    for f in ast.walk(tree):
        if isinstance(f, ast.FunctionDef) and f.name.startswith('test_'):
            env = {t.targets[0].id: t.value for t in f.body if isinstance(t, ast.Assign)}
            if 'src_markdown' in env and 'expected_rst' in env:
                out.append((f.name, ast.literal_eval(env['src_markdown']), ast.literal_eval(env['expected_rst'])))
    return out

UNIT = [
    ('test_output', 'false', '*hello!*', '<p><em>hello!</em></p>\n'),
    ('test_unicode', 'false', '<div>\u2020</div>\n', '<div>\u2020</div>\n'),
    ('test_null_string_bug', 'false', '>     sometext\n>\n\n', '<blockquote>\n<pre><code>sometext\n</code></pre>\n</blockquote>\n'),
    ('test_smart_dashes', 'true', 'a - b -- c --- d ---- e ----- f', '<p>a - b \u2013 c \u2014 d \u2013\u2013 e \u2014\u2013 f</p>\n'),
    ('test_regex_vulnerability_link_label', 'false', '[' + '\\' * 200 + '\n', '<p>[' + '\\' * 100 + '</p>\n'),
    ('test_regex_vulnerability_link_destination', 'false', '[](' * 50 + '\n', '<p>' + '[](' * 50 + '</p>\n'),
]

def write(name, doc, imp, body):
    with open(os.path.join(ROOT, name + '.lean'), 'w', encoding='utf-8') as f:
        f.write('import %s\n/-\n%s\n-/\nnamespace CM\n\n%s\nend CM\n' % (imp, doc, body))

if __name__ == '__main__':
    ex = spec_examples()
    names = []
    for k in range(0, len(ex), N):
        body = ''
        for i, (md, html) in enumerate(ex[k:k + N]):
            body += '/-- example %d -/\nexample : (toHtml false {} (%s)).toOption = some (%s) := by decide +kernel\n' % (k + i + 1, lean(md), lean(html))
        name = 'Spec%02d' % (k // N + 1)
        names.append(name)
        write(name, 'Tests of the model: examples %d to %d of /repo/spec.txt, generated by tools/gen_examples.py.' % (k + 1, min(k + N, len(ex))), 'Verif.Model.Html', body)
    body = ''
    for name, md, rst in rst_examples():
        body += '/-- %s -/\nexample : (commonmark (%s) (lit "rst")).toOption.bind (·.value) = some (%s) := by decide +kernel\n' % (name, lean(md), lean(rst))
    write('Rst01', 'Tests of the model: /repo/commonmark/tests/rst_tests.py, generated by tools/gen_examples.py.', 'Verif.Model.Main', body)
    body = ''
    for name, smart, md, html in UNIT:
        body += '/-- %s -/\nexample : (toHtml %s {} (%s)).toOption = some (%s) := by decide +kernel\n' % (name, smart, lean(md), lean(html))
    write('Unit01', 'Tests of the model: the examples of /repo/commonmark/tests/unit_tests.py:31-118, generated by tools/gen_examples.py.', 'Verif.Model.Html', body)
    print(len(ex), len(rst_examples()), names)

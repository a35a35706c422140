import Verif.Model.Html
/-
Tests of the model: examples 261 to 325 of /repo/spec.txt, generated by tools/gen_examples.py.
-/
namespace CM

/-- example 261 -/
example : (toHtml false {} ("  1.  A paragraph\n    with two lines.\n".toList)).toOption = some ("<ol>\n<li>A paragraph\nwith two lines.</li>\n</ol>\n".toList) := by decide +kernel
/-- example 262 -/
example : (toHtml false {} ("> 1. > Blockquote\ncontinued here.\n".toList)).toOption = some ("<blockquote>\n<ol>\n<li>\n<blockquote>\n<p>Blockquote\ncontinued ".toList ++ "here.</p>\n</blockquote>\n</li>\n</ol>\n</blockquote>\n".toList) := by decide +kernel
/-- example 263 -/
example : (toHtml false {} ("> 1. > Blockquote\n> continued here.\n".toList)).toOption = some ("<blockquote>\n<ol>\n<li>\n<blockquote>\n<p>Blockquote\ncontinued ".toList ++ "here.</p>\n</blockquote>\n</li>\n</ol>\n</blockquote>\n".toList) := by decide +kernel
/-- example 264 -/
example : (toHtml false {} ("- foo\n  - bar\n    - baz\n      - boo\n".toList)).toOption = some ("<ul>\n<li>foo\n<ul>\n<li>bar\n<ul>\n<li>baz\n<ul>\n<li>boo</li>\n</u".toList ++ "l>\n</li>\n</ul>\n</li>\n</ul>\n</li>\n</ul>\n".toList) := by decide +kernel
/-- example 265 -/
example : (toHtml false {} ("- foo\n - bar\n  - baz\n   - boo\n".toList)).toOption = some ("<ul>\n<li>foo</li>\n<li>bar</li>\n<li>baz</li>\n<li>boo</li>\n</u".toList ++ "l>\n".toList) := by decide +kernel
/-- example 266 -/
example : (toHtml false {} ("10) foo\n    - bar\n".toList)).toOption = some ("<ol start=\"10\">\n<li>foo\n<ul>\n<li>bar</li>\n</ul>\n</li>\n</ol>\n".toList) := by decide +kernel
/-- example 267 -/
example : (toHtml false {} ("10) foo\n   - bar\n".toList)).toOption = some ("<ol start=\"10\">\n<li>foo</li>\n</ol>\n<ul>\n<li>bar</li>\n</ul>\n".toList) := by decide +kernel
/-- example 268 -/
example : (toHtml false {} ("- - foo\n".toList)).toOption = some ("<ul>\n<li>\n<ul>\n<li>foo</li>\n</ul>\n</li>\n</ul>\n".toList) := by decide +kernel
/-- example 269 -/
example : (toHtml false {} ("1. - 2. foo\n".toList)).toOption = some ("<ol>\n<li>\n<ul>\n<li>\n<ol start=\"2\">\n<li>foo</li>\n</ol>\n</li>\n".toList ++ "</ul>\n</li>\n</ol>\n".toList) := by decide +kernel
/-- example 270 -/
example : (toHtml false {} ("- # Foo\n- Bar\n  ---\n  baz\n".toList)).toOption = some ("<ul>\n<li>\n<h1>Foo</h1>\n</li>\n<li>\n<h2>Bar</h2>\nbaz</li>\n</ul".toList ++ ">\n".toList) := by decide +kernel
/-- example 271 -/
example : (toHtml false {} ("- foo\n- bar\n+ baz\n".toList)).toOption = some ("<ul>\n<li>foo</li>\n<li>bar</li>\n</ul>\n<ul>\n<li>baz</li>\n</ul>".toList ++ "\n".toList) := by decide +kernel
/-- example 272 -/
example : (toHtml false {} ("1. foo\n2. bar\n3) baz\n".toList)).toOption = some ("<ol>\n<li>foo</li>\n<li>bar</li>\n</ol>\n<ol start=\"3\">\n<li>baz<".toList ++ "/li>\n</ol>\n".toList) := by decide +kernel
/-- example 273 -/
example : (toHtml false {} ("Foo\n- bar\n- baz\n".toList)).toOption = some ("<p>Foo</p>\n<ul>\n<li>bar</li>\n<li>baz</li>\n</ul>\n".toList) := by decide +kernel
/-- example 274 -/
example : (toHtml false {} ("The number of windows in my house is\n14.  The number of door".toList ++ "s is 6.\n".toList)).toOption = some ("<p>The number of windows in my house is\n14.  The number of d".toList ++ "oors is 6.</p>\n".toList) := by decide +kernel
/-- example 275 -/
example : (toHtml false {} ("The number of windows in my house is\n1.  The number of doors".toList ++ " is 6.\n".toList)).toOption = some ("<p>The number of windows in my house is</p>\n<ol>\n<li>The num".toList ++ "ber of doors is 6.</li>\n</ol>\n".toList) := by decide +kernel
/-- example 276 -/
example : (toHtml false {} ("- foo\n\n- bar\n\n\n- baz\n".toList)).toOption = some ("<ul>\n<li>\n<p>foo</p>\n</li>\n<li>\n<p>bar</p>\n</li>\n<li>\n<p>baz".toList ++ "</p>\n</li>\n</ul>\n".toList) := by decide +kernel
/-- example 277 -/
example : (toHtml false {} ("- foo\n  - bar\n    - baz\n\n\n      bim\n".toList)).toOption = some ("<ul>\n<li>foo\n<ul>\n<li>bar\n<ul>\n<li>\n<p>baz</p>\n<p>bim</p>\n</".toList ++ "li>\n</ul>\n</li>\n</ul>\n</li>\n</ul>\n".toList) := by decide +kernel
/-- example 278 -/
example : (toHtml false {} ("- foo\n- bar\n\n<!-- -->\n\n- baz\n- bim\n".toList)).toOption = some ("<ul>\n<li>foo</li>\n<li>bar</li>\n</ul>\n<!-- -->\n<ul>\n<li>baz</".toList ++ "li>\n<li>bim</li>\n</ul>\n".toList) := by decide +kernel
/-- example 279 -/
example : (toHtml false {} ("-   foo\n\n    notcode\n\n-   foo\n\n<!-- -->\n\n    code\n".toList)).toOption = some ("<ul>\n<li>\n<p>foo</p>\n<p>notcode</p>\n</li>\n<li>\n<p>foo</p>\n</".toList ++ "li>\n</ul>\n<!-- -->\n<pre><code>code\n</code></pre>\n".toList) := by decide +kernel
/-- example 280 -/
example : (toHtml false {} ("- a\n - b\n  - c\n   - d\n  - e\n - f\n- g\n".toList)).toOption = some ("<ul>\n<li>a</li>\n<li>b</li>\n<li>c</li>\n<li>d</li>\n<li>e</li>\n".toList ++ "<li>f</li>\n<li>g</li>\n</ul>\n".toList) := by decide +kernel
/-- example 281 -/
example : (toHtml false {} ("1. a\n\n  2. b\n\n   3. c\n".toList)).toOption = some ("<ol>\n<li>\n<p>a</p>\n</li>\n<li>\n<p>b</p>\n</li>\n<li>\n<p>c</p>\n<".toList ++ "/li>\n</ol>\n".toList) := by decide +kernel
/-- example 282 -/
example : (toHtml false {} ("- a\n - b\n  - c\n   - d\n    - e\n".toList)).toOption = some ("<ul>\n<li>a</li>\n<li>b</li>\n<li>c</li>\n<li>d\n- e</li>\n</ul>\n".toList) := by decide +kernel
/-- example 283 -/
example : (toHtml false {} ("1. a\n\n  2. b\n\n    3. c\n".toList)).toOption = some ("<ol>\n<li>\n<p>a</p>\n</li>\n<li>\n<p>b</p>\n</li>\n</ol>\n<pre><cod".toList ++ "e>3. c\n</code></pre>\n".toList) := by decide +kernel
/-- example 284 -/
example : (toHtml false {} ("- a\n- b\n\n- c\n".toList)).toOption = some ("<ul>\n<li>\n<p>a</p>\n</li>\n<li>\n<p>b</p>\n</li>\n<li>\n<p>c</p>\n<".toList ++ "/li>\n</ul>\n".toList) := by decide +kernel
/-- example 285 -/
example : (toHtml false {} ("* a\n*\n\n* c\n".toList)).toOption = some ("<ul>\n<li>\n<p>a</p>\n</li>\n<li></li>\n<li>\n<p>c</p>\n</li>\n</ul>".toList ++ "\n".toList) := by decide +kernel
/-- example 286 -/
example : (toHtml false {} ("- a\n- b\n\n  c\n- d\n".toList)).toOption = some ("<ul>\n<li>\n<p>a</p>\n</li>\n<li>\n<p>b</p>\n<p>c</p>\n</li>\n<li>\n<".toList ++ "p>d</p>\n</li>\n</ul>\n".toList) := by decide +kernel
/-- example 287 -/
example : (toHtml false {} ("- a\n- b\n\n  [ref]: /url\n- d\n".toList)).toOption = some ("<ul>\n<li>\n<p>a</p>\n</li>\n<li>\n<p>b</p>\n</li>\n<li>\n<p>d</p>\n<".toList ++ "/li>\n</ul>\n".toList) := by decide +kernel
/-- example 288 -/
example : (toHtml false {} ("- a\n- ```\n  b\n\n\n  ```\n- c\n".toList)).toOption = some ("<ul>\n<li>a</li>\n<li>\n<pre><code>b\n\n\n</code></pre>\n</li>\n<li>".toList ++ "c</li>\n</ul>\n".toList) := by decide +kernel
/-- example 289 -/
example : (toHtml false {} ("- a\n  - b\n\n    c\n- d\n".toList)).toOption = some ("<ul>\n<li>a\n<ul>\n<li>\n<p>b</p>\n<p>c</p>\n</li>\n</ul>\n</li>\n<li".toList ++ ">d</li>\n</ul>\n".toList) := by decide +kernel
/-- example 290 -/
example : (toHtml false {} ("* a\n  > b\n  >\n* c\n".toList)).toOption = some ("<ul>\n<li>a\n<blockquote>\n<p>b</p>\n</blockquote>\n</li>\n<li>c</".toList ++ "li>\n</ul>\n".toList) := by decide +kernel
/-- example 291 -/
example : (toHtml false {} ("- a\n  > b\n  ```\n  c\n  ```\n- d\n".toList)).toOption = some ("<ul>\n<li>a\n<blockquote>\n<p>b</p>\n</blockquote>\n<pre><code>c\n".toList ++ "</code></pre>\n</li>\n<li>d</li>\n</ul>\n".toList) := by decide +kernel
/-- example 292 -/
example : (toHtml false {} ("- a\n".toList)).toOption = some ("<ul>\n<li>a</li>\n</ul>\n".toList) := by decide +kernel
/-- example 293 -/
example : (toHtml false {} ("- a\n  - b\n".toList)).toOption = some ("<ul>\n<li>a\n<ul>\n<li>b</li>\n</ul>\n</li>\n</ul>\n".toList) := by decide +kernel
/-- example 294 -/
example : (toHtml false {} ("1. ```\n   foo\n   ```\n\n   bar\n".toList)).toOption = some ("<ol>\n<li>\n<pre><code>foo\n</code></pre>\n<p>bar</p>\n</li>\n</ol".toList ++ ">\n".toList) := by decide +kernel
/-- example 295 -/
example : (toHtml false {} ("* foo\n  * bar\n\n  baz\n".toList)).toOption = some ("<ul>\n<li>\n<p>foo</p>\n<ul>\n<li>bar</li>\n</ul>\n<p>baz</p>\n</li".toList ++ ">\n</ul>\n".toList) := by decide +kernel
/-- example 296 -/
example : (toHtml false {} ("- a\n  - b\n  - c\n\n- d\n  - e\n  - f\n".toList)).toOption = some ("<ul>\n<li>\n<p>a</p>\n<ul>\n<li>b</li>\n<li>c</li>\n</ul>\n</li>\n<l".toList ++ "i>\n<p>d</p>\n<ul>\n<li>e</li>\n<li>f</li>\n</ul>\n</li>\n</ul>\n".toList) := by decide +kernel
/-- example 297 -/
example : (toHtml false {} ("`hi`lo`\n".toList)).toOption = some ("<p><code>hi</code>lo`</p>\n".toList) := by decide +kernel
/-- example 298 -/
example : (toHtml false {} ("\\!\\\"\\#\\$\\%\\&\\'\\(\\)\\*\\+\\,\\-\\.\\/\\:\\;\\<\\=\\>\\?\\@\\[\\\\\\]\\^\\_\\`\\{\\|".toList ++ "\\}\\~\n".toList)).toOption = some ("<p>!&quot;#$%&amp;'()*+,-./:;&lt;=&gt;?@[\\]^_`{|}~</p>\n".toList) := by decide +kernel
/-- example 299 -/
example : (toHtml false {} ("\\\t\\A\\a\\ \\3\\φ\\«\n".toList)).toOption = some ("<p>\\\t\\A\\a\\ \\3\\φ\\«</p>\n".toList) := by decide +kernel
/-- example 300 -/
example : (toHtml false {} ("\\*not emphasized*\n\\<br/> not a tag\n\\[not a link](/foo)\n\\`not".toList ++ " code`\n1\\. not a list\n\\* not a list\n\\# not a heading\n\\[foo]:".toList ++ " /url \"not a reference\"\n\\&ouml; not a character entity\n".toList)).toOption = some ("<p>*not emphasized*\n&lt;br/&gt; not a tag\n[not a link](/foo)".toList ++ "\n`not code`\n1. not a list\n* not a list\n# not a heading\n[foo]".toList ++ ": /url &quot;not a reference&quot;\n&amp;ouml; not a characte".toList ++ "r entity</p>\n".toList) := by decide +kernel
/-- example 301 -/
example : (toHtml false {} ("\\\\*emphasis*\n".toList)).toOption = some ("<p>\\<em>emphasis</em></p>\n".toList) := by decide +kernel
/-- example 302 -/
example : (toHtml false {} ("foo\\\nbar\n".toList)).toOption = some ("<p>foo<br />\nbar</p>\n".toList) := by decide +kernel
/-- example 303 -/
example : (toHtml false {} ("`` \\[\\` ``\n".toList)).toOption = some ("<p><code>\\[\\`</code></p>\n".toList) := by decide +kernel
/-- example 304 -/
example : (toHtml false {} ("    \\[\\]\n".toList)).toOption = some ("<pre><code>\\[\\]\n</code></pre>\n".toList) := by decide +kernel
/-- example 305 -/
example : (toHtml false {} ("~~~\n\\[\\]\n~~~\n".toList)).toOption = some ("<pre><code>\\[\\]\n</code></pre>\n".toList) := by decide +kernel
/-- example 306 -/
example : (toHtml false {} ("<http://example.com?find=\\*>\n".toList)).toOption = some ("<p><a href=\"http://example.com?find=%5C*\">http://example.com".toList ++ "?find=\\*</a></p>\n".toList) := by decide +kernel
/-- example 307 -/
example : (toHtml false {} ("<a href=\"/bar\\/)\">\n".toList)).toOption = some ("<a href=\"/bar\\/)\">\n".toList) := by decide +kernel
/-- example 308 -/
example : (toHtml false {} ("[foo](/bar\\* \"ti\\*tle\")\n".toList)).toOption = some ("<p><a href=\"/bar*\" title=\"ti*tle\">foo</a></p>\n".toList) := by decide +kernel
/-- example 309 -/
example : (toHtml false {} ("[foo]\n\n[foo]: /bar\\* \"ti\\*tle\"\n".toList)).toOption = some ("<p><a href=\"/bar*\" title=\"ti*tle\">foo</a></p>\n".toList) := by decide +kernel
/-- example 310 -/
example : (toHtml false {} ("``` foo\\+bar\nfoo\n```\n".toList)).toOption = some ("<pre><code class=\"language-foo+bar\">foo\n</code></pre>\n".toList) := by decide +kernel
/-- example 311 -/
example : (toHtml false {} ("&nbsp; &amp; &copy; &AElig; &Dcaron;\n&frac34; &HilbertSpace;".toList ++ " &DifferentialD;\n&ClockwiseContourIntegral; &ngE;\n".toList)).toOption = some ("<p>  &amp; © Æ Ď\n¾ ℋ ⅆ\n∲ ≧̸</p>\n".toList) := by decide +kernel
/-- example 312 -/
example : (toHtml false {} ("&#35; &#1234; &#992; &#0;\n".toList)).toOption = some ("<p># Ӓ Ϡ �</p>\n".toList) := by decide +kernel
/-- example 313 -/
example : (toHtml false {} ("&#X22; &#XD06; &#xcab;\n".toList)).toOption = some ("<p>&quot; ആ ಫ</p>\n".toList) := by decide +kernel
/-- example 314 -/
example : (toHtml false {} ("&nbsp &x; &#; &#x;\n&#987654321;\n&#abcdef0;\n&ThisIsNotDefined".toList ++ "; &hi?;\n".toList)).toOption = some ("<p>&amp;nbsp &amp;x; &amp;#; &amp;#x;\n&amp;#987654321;\n&amp;".toList ++ "#abcdef0;\n&amp;ThisIsNotDefined; &amp;hi?;</p>\n".toList) := by decide +kernel
/-- example 315 -/
example : (toHtml false {} ("&copy\n".toList)).toOption = some ("<p>&amp;copy</p>\n".toList) := by decide +kernel
/-- example 316 -/
example : (toHtml false {} ("&MadeUpEntity;\n".toList)).toOption = some ("<p>&amp;MadeUpEntity;</p>\n".toList) := by decide +kernel
/-- example 317 -/
example : (toHtml false {} ("<a href=\"&ouml;&ouml;.html\">\n".toList)).toOption = some ("<a href=\"&ouml;&ouml;.html\">\n".toList) := by decide +kernel
/-- example 318 -/
example : (toHtml false {} ("[foo](/f&ouml;&ouml; \"f&ouml;&ouml;\")\n".toList)).toOption = some ("<p><a href=\"/f%C3%B6%C3%B6\" title=\"föö\">foo</a></p>\n".toList) := by decide +kernel
/-- example 319 -/
example : (toHtml false {} ("[foo]\n\n[foo]: /f&ouml;&ouml; \"f&ouml;&ouml;\"\n".toList)).toOption = some ("<p><a href=\"/f%C3%B6%C3%B6\" title=\"föö\">foo</a></p>\n".toList) := by decide +kernel
/-- example 320 -/
example : (toHtml false {} ("``` f&ouml;&ouml;\nfoo\n```\n".toList)).toOption = some ("<pre><code class=\"language-föö\">foo\n</code></pre>\n".toList) := by decide +kernel
/-- example 321 -/
example : (toHtml false {} ("`f&ouml;&ouml;`\n".toList)).toOption = some ("<p><code>f&amp;ouml;&amp;ouml;</code></p>\n".toList) := by decide +kernel
/-- example 322 -/
example : (toHtml false {} ("    f&ouml;f&ouml;\n".toList)).toOption = some ("<pre><code>f&amp;ouml;f&amp;ouml;\n</code></pre>\n".toList) := by decide +kernel
/-- example 323 -/
example : (toHtml false {} ("&#42;foo&#42;\n*foo*\n".toList)).toOption = some ("<p>*foo*\n<em>foo</em></p>\n".toList) := by decide +kernel
/-- example 324 -/
example : (toHtml false {} ("&#42; foo\n\n* foo\n".toList)).toOption = some ("<p>* foo</p>\n<ul>\n<li>foo</li>\n</ul>\n".toList) := by decide +kernel
/-- example 325 -/
example : (toHtml false {} ("foo&#10;&#10;bar\n".toList)).toOption = some ("<p>foo\n\nbar</p>\n".toList) := by decide +kernel

end CM

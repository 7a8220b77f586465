"""Print the first and last line of every range of lines of the library that the models cite. Usage: citations.py [REPO]"""
import glob, os, re, sys
here = os.path.dirname(os.path.abspath(__file__))
repo = sys.argv[1] if len(sys.argv) > 1 else "/repo"
files = {os.path.basename(f): open(f).read().split("\n") for f in glob.glob(repo + "/include/**/*.hpp", recursive=True)}
CITE = re.compile(r"`(?:[a-z/]*/)?([a-z-]+\.hpp)` ((?:\d+(?:-\d+)?(?:, | and )?)+)(?=([^\n]{0,40}))")
for f in sorted(glob.glob(os.path.join(here, "../lean/Verif/Model/*.lean"))):
    text = open(f).read()
    for m in CITE.finditer(text):
        lines = files[m.group(1)]
        for r in re.findall(r"\d+(?:-\d+)?", m.group(2)):
            a, b = int(r.split("-")[0]), int(r.split("-")[-1])
            assert a <= b <= len(lines), (f, m.group(0))
            print("%s:%d %s %s |%s| %s .. %s" % (os.path.basename(f), text[:m.start()].count("\n") + 1, m.group(1), r, m.group(3),
                lines[a - 1].strip()[:60], lines[b - 1].strip()[:30]))

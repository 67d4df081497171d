lean/.lake/
lean/build/
lean/lake-manifest.json.bak
*.olean
*.ilean
*.c.o
